import Verif.Base.Sort
import Verif.Dag.Model
/-!
# The execution cache (`task-maker-cache`)

Function by function model of `key.rs`, `entry.rs` and of `Cache::insert`/`Cache::get` of `lib.rs`.
The persistence of the cache file (`storage.rs`) is in `Verif/Storage`.

Simplifications:
* `file_keys : HashMap<FileUuid, FileStoreHandle>` is a map to store keys (the handle's only
  observable content here is its key); indexing a missing key, a panic in Rust, is `none`;
* the `FileStore` is, for these functions, the test `present` "does `FileStore::get` return a
  handle for this key";
* paths are compared as strings (`PathBuf` compares component by component);
* times are exact integers (see `Verif/Dag/Model.lean`); memory quantities are `u64` with the
  wrapping arithmetic of a release build.
-/

namespace TM.Cache

open TM

/-- `HashMap<FileUuid, FileStoreHandle>`. -/
abbrev FileKeys := AMap FileUuid FileStoreKey

/-- task-maker-dag/src/execution_group.rs:49-52 `Fifo::sandbox_path` (10: `FIFO_SANDBOX_DIR`); the
textual form of a UUID is the decimal one. -/
def fifoPath (f : FifoUuid) : String := "tm_pipes/" ++ Nat.repr f

/-- task-maker-cache/src/key.rs:55 `format!("tm_fifo_{}", i)`. -/
def fifoName (i : Nat) : String := "tm_fifo_" ++ Nat.repr i

/-- task-maker-cache/src/key.rs:9-24 `CacheKeyItem`. -/
structure KeyItem where
  command : ExecutionCommand
  args : List String
  stdin : Option FileStoreKey
  inputs : List (String × FileStoreKey × Bool)
  env : List (String × String)
deriving DecidableEq

/-- task-maker-cache/src/key.rs:28-32 `CacheKey`. -/
structure Key where
  items : List KeyItem
deriving DecidableEq

/-- `Ord for FileStoreKey` (derived, task-maker-store/src/lib.rs). -/
def keyLe (a b : FileStoreKey) : Bool := strLe a.hash b.hash

/-- The order used by `.sorted()` on the inputs (key.rs:48). -/
def inputLe : String × FileStoreKey × Bool → String × FileStoreKey × Bool → Bool :=
  lexLe strLe (lexLe keyLe boolLe)

/-- The order used by `.sorted()` on the environment (key.rs:50). -/
def envLe : String × String → String × String → Bool := lexLe strLe strLe

/-- task-maker-cache/src/key.rs:52-56: the map from the sandbox path of each FIFO to its canonical
name, built by inserting the FIFOs in order. -/
def fifoMap (g : ExecutionGroup) : AMap String String :=
  (g.fifo.zipIdx).foldl (fun m p => m.insert (fifoPath p.1) (fifoName p.2)) []

/-- task-maker-cache/src/key.rs:58-64: the canonical form of an argument. -/
def canonArg (fifos : AMap String String) (arg : String) : String :=
  match fifos.get? arg with
  | some name => name
  | none => arg

/-- task-maker-cache/src/key.rs:42-47: the key of an input, `none` if the file has no key. -/
def inputKey (fk : FileKeys) (p : String × ExecutionInput) :
    Option (String × FileStoreKey × Bool) :=
  (fk.get? p.2.file).map (fun k => (p.1, k, p.2.executable))

/-- task-maker-cache/src/key.rs:42: the key of the stdin; `none` is the panic. -/
def stdinKey (fk : FileKeys) : Option FileUuid → Option (Option FileStoreKey)
  | none => some none
  | some f => (fk.get? f).map some

/-- task-maker-cache/src/key.rs:37-76 `CacheKeyItem::from_execution` with `Some(group)`; `none` is
the panic of `file_keys[..]`. -/
def keyItem (g : ExecutionGroup) (fk : FileKeys) (e : Execution) : Option KeyItem := do
  let stdin ← stdinKey fk e.stdin
  let inputs ← e.inputs.mapM (inputKey fk)
  return {
    command := e.command
    args := e.args.map (canonArg (fifoMap g))
    stdin := stdin
    inputs := isort inputLe inputs
    env := isort envLe e.env }

/-- task-maker-cache/src/key.rs:82-93 `CacheKey::from_execution_group`. -/
def cacheKey (g : ExecutionGroup) (fk : FileKeys) : Option Key := do
  let items ← g.executions.mapM (keyItem g fk)
  return ⟨items⟩

/-- task-maker-cache/src/entry.rs:10-26 `CacheEntryItem`. -/
structure EntryItem where
  result : ExecutionResult
  limits : ExecutionLimits
  extraTime : Int
  extraMemory : Nat
  stdout : Option FileStoreKey
  stderr : Option FileStoreKey
  outputs : AMap String FileStoreKey
deriving DecidableEq

/-- task-maker-cache/src/entry.rs:34-38 `CacheEntry`. -/
structure Entry where
  items : List EntryItem
deriving DecidableEq

/-- task-maker-cache/src/entry.rs:60: the key of an output file, `none` is the panic. -/
def outputKey (fk : FileKeys) (p : String × FileUuid) : Option (String × FileStoreKey) :=
  (fk.get? p.2).map (fun k => (p.1, k))

/-- task-maker-cache/src/entry.rs:42-71 `CacheEntryItem::from_execution`. -/
def entryItem (fk : FileKeys) (e : Execution) (r : ExecutionResult) : Option EntryItem := do
  let outputs ← e.outputs.mapM (outputKey fk)
  return {
    result := r
    limits := e.limits
    extraTime := e.config.extraTime
    extraMemory := e.config.extraMemory
    stdout := e.stdout.bind fk.get?
    stderr := e.stderr.bind fk.get?
    outputs := outputs }

/-- task-maker-cache/src/entry.rs:76-86 `CacheEntry::from_execution_group`. -/
def cacheEntry (g : ExecutionGroup) (fk : FileKeys) (rs : List ExecutionResult) : Option Entry := do
  let items ← (g.executions.zip rs).mapM (fun p => entryItem fk p.1 p.2)
  return ⟨items⟩

/-- task-maker-cache/src/entry.rs:88-98 `CacheEntry::same_limits`. -/
def sameLimits (a b : Entry) : Bool :=
  if a.items.length ≠ b.items.length then false
  else (a.items.zip b.items).all (fun p => decide (p.1.limits = p.2.limits))

/-- task-maker-cache/src/entry.rs:109-133: one declared output.  `recorded` is the key in the
entry; `none` makes `outputs` return `None`. -/
def tryGet (present : FileStoreKey → Bool) (recorded : Option FileStoreKey)
    (outs : AMap FileUuid FileStoreKey) (file : FileUuid) : Option (AMap FileUuid FileStoreKey) :=
  match recorded with
  | none => none
  | some k => if present k then some (outs.insert file k) else none

/-- entry.rs:127-133, 134-140: an optional stream. -/
def outStream (present : FileStoreKey → Bool) (recorded : Option FileStoreKey)
    (file : Option FileUuid) (outs : AMap FileUuid FileStoreKey) :
    Option (AMap FileUuid FileStoreKey) :=
  match file with
  | none => some outs
  | some f => tryGet present recorded outs f

/-- task-maker-cache/src/entry.rs:127-147: the outputs of one execution. -/
def outItem (present : FileStoreKey → Bool) (outs : AMap FileUuid FileStoreKey)
    (p : Execution × EntryItem) : Option (AMap FileUuid FileStoreKey) := do
  let outs ← outStream present p.2.stdout p.1.stdout outs
  let outs ← outStream present p.2.stderr p.1.stderr outs
  p.1.outputs.foldlM (fun outs q => tryGet present (p.2.outputs.get? q.1) outs q.2) outs

/-- task-maker-cache/src/entry.rs:102-150 `CacheEntry::outputs`. -/
def outputs (en : Entry) (present : FileStoreKey → Bool) (g : ExecutionGroup) :
    Option (AMap FileUuid FileStoreKey) :=
  (g.executions.zip en.items).foldlM (outItem present) []

/-- task-maker-cache/src/entry.rs:157-169 `check_limit!` for the times; `false` is
`return false`. -/
def checkLimit (left right : Option Int) (extra : Int) : Bool :=
  match left, right with
  | some l, some r => decide (¬ (l + extra > r))
  | none, some _ => false
  | _, _ => true

/-- The range of `u64`. -/
def two64 : Nat := 2 ^ 64

/-- `a - b` on `u64` in a release build. -/
def wsub (a b : Nat) : Nat := (a + (two64 - b % two64)) % two64

/-- `a + b` on `u64` in a release build. -/
def wadd (a b : Nat) : Nat := (a + b) % two64

/-- task-maker-cache/src/entry.rs:157-169 `check_limit!` for the integer limits. -/
def checkLimitU (left right : Option Nat) (extra : Nat) : Bool :=
  match left, right with
  | some l, some r => decide (¬ (wadd l extra > r))
  | none, some _ => false
  | _, _ => true

/-- task-maker-cache/src/entry.rs:190-198: the directories are compared as sets; rejected when the
left ones are a proper superset of the right ones. -/
def checkDirs (left right : List String) : Bool :=
  let eq := left.all (fun d => decide (d ∈ right)) && right.all (fun d => decide (d ∈ left))
  let superset := right.all (fun d => decide (d ∈ left))
  !(!eq && superset)

/-- task-maker-cache/src/entry.rs:171-200 `check_limits!`.  `mount_proc` is not looked at. -/
def checkLimits (left right : ExecutionLimits) (extraTime : Int) (extraMemory : Nat) : Bool :=
  checkLimit left.cpuTime right.cpuTime extraTime &&
  checkLimit left.sysTime right.sysTime extraTime &&
  checkLimit left.wallTime right.wallTime extraTime &&
  checkLimitU left.memory right.memory extraMemory &&
  checkLimitU left.nofile right.nofile 0 &&
  checkLimitU left.fsize right.fsize 0 &&
  checkLimitU left.memlock right.memlock 0 &&
  checkLimitU left.stack right.stack 0 &&
  !(left.allowMultiprocess && !right.allowMultiprocess) &&
  !(!left.readOnly && right.readOnly) &&
  !(left.mountTmpfs && !right.mountTmpfs) &&
  checkDirs left.extraReadableDirs right.extraReadableDirs

/-- task-maker-cache/src/entry.rs:203-224: one execution; `xt`, `xm` are the extra time and memory
of the request. -/
def itemCompatible (xt : Int) (xm : Nat) (p : Execution × EntryItem) : Bool :=
  match p.2.result.status with
  | .success => checkLimits p.2.limits p.1.limits (p.2.extraTime - xt) (wsub p.2.extraMemory xm)
  | _ => checkLimits p.1.limits p.2.limits (xt - p.2.extraTime) (wsub xm p.2.extraMemory)

/-- task-maker-dag/src/execution_group.rs:90-95 `ExecutionGroup::config`; `none` is the panic on
an empty group. -/
def groupConfig (g : ExecutionGroup) : Option DagConfig := g.executions.head?.map (·.config)

/-- task-maker-cache/src/entry.rs:154-226 `CacheEntry::is_compatible`; `none` is the panic. -/
def isCompatible (en : Entry) (g : ExecutionGroup) : Option Bool :=
  (groupConfig g).map fun cfg =>
    (g.executions.zip en.items).all (itemCompatible cfg.extraTime cfg.extraMemory)

/-- task-maker-cache/src/lib.rs:186-190: what is recovered of the way the program ended. -/
def recovered : ExecutionStatus → Nat × Option (Nat × String)
  | .returnCode c => (c, none)
  | .signal s name => (0, some (s, name))
  | _ => (0, none)

/-- task-maker-cache/src/lib.rs:185-199: one served result. -/
def servedResult (p : Execution × EntryItem) : ExecutionResult :=
  let r := p.2.result
  { status := p.1.status (recovered r.status).1 (recovered r.status).2 r.resources
    wasKilled := r.wasKilled
    wasCached := true
    resources := r.resources
    stdout := r.stdout
    stderr := r.stderr }

/-- task-maker-cache/src/lib.rs:112-122 `CacheResult`. -/
inductive Res where
  | miss
  | hit (results : List ExecutionResult) (outputs : AMap FileUuid FileStoreKey)
deriving DecidableEq

/-- task-maker-cache/src/lib.rs:177-208: the scan of the entries of a key; `none` is a panic. -/
def scan (present : FileStoreKey → Bool) (g : ExecutionGroup) : List Entry → Option Res
  | [] => some .miss
  | en :: rest =>
    match outputs en present g with
    | none => scan present g rest
    | some outs =>
      match isCompatible en g with
      | none => none
      | some true => some (.hit ((g.executions.zip en.items).map servedResult) outs)
      | some false => scan present g rest

/-- task-maker-cache/src/storage.rs:24-31 `CacheFile` (without its path). -/
structure State where
  entries : AMap Key (List Entry) := []
  dirty : Bool := false

/-- task-maker-cache/src/lib.rs:150-155: replace the first entry with the same limits or append. -/
def upsert (en : Entry) : List Entry → List Entry
  | [] => [en]
  | e :: l => if sameLimits e en then en :: l else e :: upsert en l

/-- task-maker-cache/src/lib.rs:140-157 `Cache::insert`; `none` is a panic. -/
def insert (s : State) (g : ExecutionGroup) (fk : FileKeys) (rs : List ExecutionResult) :
    Option State := do
  let key ← cacheKey g fk
  let en ← cacheEntry g fk rs
  return { entries := s.entries.insert key (upsert en ((s.entries.get? key).getD [])),
           dirty := true }

/-- task-maker-cache/src/lib.rs:164-209 `Cache::get`; `none` is a panic. -/
def get (s : State) (g : ExecutionGroup) (fk : FileKeys) (present : FileStoreKey → Bool) :
    Option Res := do
  let key ← cacheKey g fk
  match s.entries.get? key with
  | none => return .miss
  | some ens => scan present g ens

end TM.Cache
