import Verif.Base.Sort
import Verif.Dag.Model
/-!
# The file store (`task-maker-store`)

The store is shared by several threads (scheduler, worker managers, workers of the same process).
The model is a transition system whose steps are the pieces of `FileStore::store`, `FileStore::get`,
`Clone`/`Drop` of the handles and `Drop for FileStore` between two points at which another thread
can interfere or a crash can happen:

* the reference counts are only touched under the `locked_files` mutex;
* the index is only touched under the `index` mutex; the model does not keep the mutex locked
  between the flush and the save of the index, so it has more interleavings than the code;
* a rename is atomic, everything written before it goes to a private temporary directory.

Simplifications: the content of a file is a list of bytes (naturals); I/O errors can happen at any
stage of a `store` (`storeFail`) and at the removal of a file (`undeletable`), other I/O errors are
not modelled; removing empty directories has no observable effect; times are naturals given by the
environment (they may go backwards, like `SystemTime::now`).
-/

namespace TM.Store

open TM

/-- The bytes of a file. -/
abbrev Content := List Nat
abbrev Key := FileStoreKey

/-- task-maker-store/src/index.rs:25-30 `FileStoreIndexItem`. -/
structure Item where
  size : Nat
  lastAccess : Nat
deriving DecidableEq

/-- task-maker-store/src/index.rs:45-50 `FileStoreIndex`. -/
structure Index where
  total : Nat := 0
  known : AMap Key Item := []
deriving DecidableEq

/-- task-maker-store/src/lib.rs:404-412 `FileStoreKey::suffix`, on the characters of the hexadecimal
digest. -/
def suffix (hex : List Char) : List Char :=
  hex.take 2 ++ ['/'] ++ ((hex.drop 2).take 2 ++ ['/']) ++ hex

/-! ## The index -/

/-- task-maker-store/src/index.rs:111-115 `touch`. -/
def Index.touch (ix : Index) (k : Key) (now : Nat) : Index :=
  match ix.known.get? k with
  | some it => { ix with known := ix.known.insert k { it with lastAccess := now } }
  | none => ix

/-- task-maker-store/src/index.rs:118-135 `add`; `size` is the length of the file on disk. -/
def Index.add (ix : Index) (k : Key) (size now : Nat) : Index :=
  match ix.known.get? k with
  | some it => { ix with known := ix.known.insert k { it with lastAccess := now } }
  | none => { total := ix.total + size, known := ix.known.insert k ⟨size, now⟩ }

/-- task-maker-store/src/index.rs:138-140 `need_flush`. -/
def Index.needFlush (ix : Index) (limit : Nat) : Bool := decide (ix.total ≥ limit)

/-- The order in which `BinaryHeap<(FileStoreIndexItem, FileStoreKey)>` pops (index.rs:32-36,
157-158; lib.rs:459-463): greatest last access first, then greatest key. -/
def popBefore (a b : Key × Item) : Bool :=
  lexLe (fun x y => decide (x ≤ y)) strLe (b.2.lastAccess, b.1.hash) (a.2.lastAccess, a.1.hash)

/-- task-maker-store/src/index.rs:162-201: the flush loop on the entries in popping order.  Returns
the total size, the entries that stay in the index and the keys removed, in order. -/
def flushLoop (locked : Key → Bool) (target : Nat) :
    Nat → List (Key × Item) → Nat × List (Key × Item) × List Key
  | total, [] => (total, [], [])
  | total, (k, it) :: q =>
    if total ≤ target then (total, (k, it) :: q, [])
    else if locked k then
      let r := flushLoop locked target total q
      (r.1, (k, it) :: r.2.1, r.2.2)
    else
      let r := flushLoop locked target (total - it.size) q
      (r.1, r.2.1, k :: r.2.2)

/-- task-maker-store/src/index.rs:144-212 `flush`: the new index and the files removed. -/
def Index.flush (ix : Index) (locked : Key → Bool) (target : Nat) : Index × List Key :=
  let r := flushLoop locked target ix.total (isort popBefore ix.known)
  ({ total := r.1, known := r.2.1 }, r.2.2)

/-! ## The store -/

/-- A live `FileStoreHandle` (lib.rs:111-118).  `id` names the Rust value and `fromGet` records
whether it (or the handle it was cloned from) was returned by `get`: both are ghost. -/
structure Handle where
  id : Nat
  key : Key
  fromGet : Bool
deriving DecidableEq

/-- How far a call of `store` went. -/
inductive Stage where
  /-- lib.rs:218, the handle exists -/
  | begun
  /-- lib.rs:223-238, writing the temporary file -/
  | writing
  /-- lib.rs:239-246, the file is in place -/
  | renamed
  /-- lib.rs:248-252, added to the index, which was flushed if needed -/
  | indexed
deriving DecidableEq

/-- What a thread is doing in the store. -/
inductive Job where
  | storing (key : Key) (content : Content) (hid : Nat) (stage : Stage)
  /-- lib.rs:295-297: `get` saw the file; `touched` after lib.rs:305-308 -/
  | getting (key : Key) (touched : Bool)
deriving DecidableEq

/-- task-maker-store/src/lib.rs:84-97 `FileStore` and the directory it manages. -/
structure State where
  /-- the files at `key_to_path(key)` -/
  disk : AMap Key Content := []
  index : Index := {}
  /-- the content of `index.bin`, as far as this version can read it -/
  saved : Option Index := none
  /-- lib.rs:71-74 `LockedFiles` -/
  refs : AMap Key Nat := []
  handles : List Handle := []
  threads : AMap Nat Job := []
  maxSize : Nat
  minSize : Nat

/-- lib.rs:491, 519: `*ref_counts.entry(key).or_default() += 1`. -/
def incRef (refs : AMap Key Nat) (k : Key) : AMap Key Nat :=
  refs.insert k ((refs.get? k).getD 0 + 1)

/-- lib.rs:541-547: decrement and remove at zero; `none` is the panic "Ref counts are broken". -/
def decRef (refs : AMap Key Nat) (k : Key) : Option (AMap Key Nat) :=
  match refs.get? k with
  | none => none
  | some n => if n - 1 = 0 then some (refs.erase k) else some (refs.insert k (n - 1))

/-- A new handle (lib.rs:488-497, 517-526). -/
def State.newHandle (s : State) (id : Nat) (k : Key) (fromGet : Bool) : State :=
  { s with refs := incRef s.refs k, handles := ⟨id, k, fromGet⟩ :: s.handles }

/-- Dropping a handle (lib.rs:536-548). -/
def State.dropHandle (s : State) (h : Handle) : Option State :=
  (decRef s.refs h.key).map fun refs =>
    { s with refs := refs, handles := s.handles.filter (fun x => decide (x.id ≠ h.id)) }

/-- index.rs:170: `locked_files.ref_counts.contains_key(&key)`. -/
def State.locked (s : State) (k : Key) : Bool := (s.refs.get? k).isSome

/-- Removing files from the disk (index.rs:176-180, lib.rs:329-339): the ones in `undeletable`
stay. -/
def removeFiles (disk : AMap Key Content) (removed undeletable : List Key) : AMap Key Content :=
  disk.filter (fun p => decide (p.1 ∉ removed ∨ p.1 ∈ undeletable))

/-- lib.rs:363-371 `maybe_flush`, and the same code in `Drop` (385-389). -/
def State.maybeFlush (s : State) (undeletable : List Key) : State :=
  if s.index.needFlush s.maxSize then
    let r := s.index.flush s.locked s.minSize
    { s with index := r.1, disk := removeFiles s.disk r.2 undeletable }
  else s

/-- lib.rs:141-177 `FileStore::new` on what a previous process left; `sameVersion = false` is an
index written by another version (index.rs:54-85). -/
def State.reopen (s : State) (sameVersion : Bool) : State :=
  { disk := s.disk, saved := s.saved, maxSize := s.maxSize, minSize := s.minSize
    index := if sameVersion then s.saved.getD {} else {} }

/-- The steps. -/
inductive Op where
  | storeBegin (t hid : Nat) (key : Key) (content : Content)
  | storeCheck (t : Nat)
  | storeRename (t : Nat)
  | storeIndex (t now : Nat) (undeletable : List Key)
  | storeSave (t : Nat)
  | storeFail (t : Nat)
  | getCheck (t : Nat) (key : Key)
  | getTouch (t now : Nat)
  | getFinish (t hid : Nat)
  | clone (hid hid' : Nat)
  | dropHandle (hid : Nat)
  | close (undeletable : List Key) (sameVersion : Bool)
  | crash (sameVersion : Bool)
  /-- a crash after `n` removals of the flush of `storeIndex` -/
  | flushCrash (t now n : Nat) (undeletable : List Key) (sameVersion : Bool)
deriving DecidableEq

/-- The handle is the one of a `store` still running. -/
def State.inFlight (s : State) (hid : Nat) : Bool :=
  s.threads.any fun p => match p.2 with
    | .storing _ _ h _ => decide (h = hid)
    | .getting _ _ => false

/-- No live handle has this identity. -/
def State.fresh (s : State) (hid : Nat) : Bool := s.handles.all (fun h => decide (h.id ≠ hid))

/-- One step; `none` when the step is not possible in this state (or panics). -/
def step (s : State) : Op → Option State
  | .storeBegin t hid key content =>
    -- lib.rs:215-218
    if (s.threads.get? t).isNone ∧ s.fresh hid then
      some { s.newHandle hid key false with
        threads := s.threads.insert t (.storing key content hid .begun) }
    else none
  | .storeCheck t =>
    -- lib.rs:219-223; when the file is there the handle is returned to the caller
    match s.threads.get? t with
    | some (.storing key content hid .begun) =>
      if (s.disk.get? key).isSome then some { s with threads := s.threads.erase t }
      else some { s with threads := s.threads.insert t (.storing key content hid .writing) }
    | _ => none
  | .storeRename t =>
    -- lib.rs:239-246
    match s.threads.get? t with
    | some (.storing key content hid .writing) =>
      some { s with disk := s.disk.insert key content
                    threads := s.threads.insert t (.storing key content hid .renamed) }
    | _ => none
  | .storeIndex t now undeletable =>
    -- lib.rs:248-252
    match s.threads.get? t with
    | some (.storing key content hid .renamed) =>
      match s.disk.get? key with
      | some c =>
        let s := { s with index := s.index.add key c.length now
                          threads := s.threads.insert t (.storing key content hid .indexed) }
        some (s.maybeFlush undeletable)
      | none => none
    | _ => none
  | .storeSave t =>
    -- lib.rs:254-259
    match s.threads.get? t with
    | some (.storing _ _ _ .indexed) =>
      some { s with saved := some s.index, threads := s.threads.erase t }
    | _ => none
  | .storeFail t =>
    -- any `?` or `bail!` of lib.rs:224-256: the handle is dropped
    match s.threads.get? t with
    | some (.storing _ _ hid _) =>
      match s.handles.find? (fun h => decide (h.id = hid)) with
      | some h => ({ s with threads := s.threads.erase t }).dropHandle h
      | none => none
    | _ => none
  | .getCheck t key =>
    -- lib.rs:294-297
    if (s.threads.get? t).isNone ∧ (s.disk.get? key).isSome then
      some { s with threads := s.threads.insert t (.getting key false) }
    else none
  | .getTouch t now =>
    -- lib.rs:305-308
    match s.threads.get? t with
    | some (.getting key false) =>
      some { s with index := s.index.touch key now
                    threads := s.threads.insert t (.getting key true) }
    | _ => none
  | .getFinish t hid =>
    -- lib.rs:309
    match s.threads.get? t with
    | some (.getting key true) =>
      if s.fresh hid then
        some { s.newHandle hid key true with threads := s.threads.erase t }
      else none
    | _ => none
  | .clone hid hid' =>
    -- the handle of a running `store` cannot be cloned: its caller does not have it yet
    match s.handles.find? (fun h => decide (h.id = hid)) with
    | some h =>
      if s.inFlight hid = false ∧ s.fresh hid' then some (s.newHandle hid' h.key h.fromGet) else none
    | none => none
  | .dropHandle hid =>
    match s.handles.find? (fun h => decide (h.id = hid)) with
    | some h => if s.inFlight hid then none else s.dropHandle h
    | none => none
  | .close undeletable sameVersion =>
    -- lib.rs:375-397, then a new process opens the store
    let s := s.maybeFlush undeletable
    some ({ s with saved := some s.index }.reopen sameVersion)
  | .crash sameVersion => some (s.reopen sameVersion)
  | .flushCrash t now n undeletable sameVersion =>
    match s.threads.get? t with
    | some (.storing key _ _ .renamed) =>
      match s.disk.get? key with
      | some c =>
        let ix := s.index.add key c.length now
        if ix.needFlush s.maxSize then
          let r := ix.flush s.locked s.minSize
          some ({ s with disk := removeFiles s.disk (r.2.take n) undeletable }.reopen sameVersion)
        else none
      | none => none
    | _ => none

/-- The states reachable from an empty store directory, with the steps made. -/
inductive Reach (maxSize minSize : Nat) : List Op → State → Prop
  | init : Reach maxSize minSize [] { maxSize := maxSize, minSize := minSize }
  | step {ops s s'} (op : Op) : Reach maxSize minSize ops s → step s op = some s' →
      Reach maxSize minSize (ops ++ [op]) s'

end TM.Store
