/-!
# Persistence of the store index and of the cache file

`FileStoreIndex::{load,store}` (task-maker-store/src/index.rs:54-108) and
`CacheFile::{load,store}` (task-maker-cache/src/storage.rs:35-100) share the same code shape: a magic
line with the version followed by a bincode dump, written to a `.tmp` file which is then renamed.

A file system is reduced to the two paths involved.  A crash is a process crash: what was written
with `write` is kept (there is no `fsync` in the code, power failures are not modelled).
-/

namespace TM.Storage

/-- The bytes of a file. -/
abbrev Bytes := List Nat

/-- index.rs:21, storage.rs:20: `MAGIC`, "<name> v<version>\n". -/
def magic (name version : String) : Bytes :=
  (name.toList ++ [' ', 'v'] ++ version.toList ++ ['\n']).map Char.toNat

/-- A serialization format: `bincode::serialize_into` and `bincode::deserialize_from`. -/
structure Codec (α : Type) where
  enc : α → Bytes
  dec : Bytes → Option α

/-- The result of a `load`. -/
inductive Loaded (α : Type) where
  | ok (x : α)
  | error
deriving DecidableEq

/-- index.rs:54-85, storage.rs:35-71 `load`: `none` is a missing file.  When the file is shorter than
the magic `read_exact` fails having consumed it all, and the deserializer sees no byte. -/
def load {α : Type} (c : Codec α) (m : Bytes) (empty : α) : Option Bytes → Loaded α
  | none => .ok empty
  | some f =>
    if m.length ≤ f.length ∧ f.take m.length ≠ m then .ok empty
    else match c.dec (f.drop m.length) with
      | some x => .ok x
      | none => .error

/-- The two paths of a dump. -/
structure Fs where
  main : Option Bytes := none
  tmp : Option Bytes := none
deriving DecidableEq

/-- The system calls of a save. -/
inductive Sys where
  /-- `File::create(&tmp)`: creates or truncates -/
  | create
  /-- one `write` of the buffered writer -/
  | write (chunk : Bytes)
  /-- `std::fs::rename(&tmp, path)` -/
  | rename
deriving DecidableEq

def Fs.call (fs : Fs) : Sys → Fs
  | .create => { fs with tmp := some [] }
  | .write chunk => { fs with tmp := some ((fs.tmp.getD []) ++ chunk) }
  | .rename => { main := fs.tmp, tmp := none }

def Fs.calls (fs : Fs) (l : List Sys) : Fs := l.foldl Fs.call fs

/-- index.rs:88-108, storage.rs:74-100 `store`: the system calls made when the data reaches the file in
these chunks. -/
def saveCalls (chunks : List Bytes) : List Sys :=
  .create :: chunks.map .write ++ [.rename]

/-- What is written (index.rs:99-103, storage.rs:87-92). -/
def dump {α : Type} (c : Codec α) (m : Bytes) (x : α) : Bytes := m ++ c.enc x

/-! ## The format of the index (bincode 1.x, default configuration) -/

/-- The `n` bytes of `v`, least significant first. -/
def le : Nat → Nat → Bytes
  | 0, _ => []
  | n + 1, v => v % 256 :: le n (v / 256)

/-- Reading `n` bytes. -/
def readLe : Nat → Bytes → Option (Nat × Bytes)
  | 0, bs => some (0, bs)
  | _ + 1, [] => none
  | n + 1, b :: bs => (readLe n bs).map fun (v, r) => (b + 256 * v, r)

/-- An entry of `known_files` (index.rs:24-30): the 32 bytes of the key (lib.rs:465-484, here the
number they encode), the size and the last access as seconds and nanoseconds. -/
structure DiskItem where
  hash : Nat
  size : Nat
  secs : Nat
  nanos : Nat
deriving DecidableEq

/-- `FileStoreIndex` (index.rs:43-50) as serialized: the map in its iteration order. -/
structure DiskIndex where
  total : Nat
  files : List DiskItem
deriving DecidableEq

/-- The values are in the range of their Rust types. -/
def DiskItem.Valid (i : DiskItem) : Prop :=
  i.hash < 256 ^ 32 ∧ i.size < 256 ^ 8 ∧ i.secs < 256 ^ 8 ∧ i.nanos < 256 ^ 4

def DiskIndex.Valid (x : DiskIndex) : Prop :=
  x.total < 256 ^ 8 ∧ x.files.length < 256 ^ 8 ∧ ∀ i ∈ x.files, i.Valid

def encItem (i : DiskItem) : Bytes := le 32 i.hash ++ (le 8 i.size ++ (le 8 i.secs ++ le 4 i.nanos))

def decItem (bs : Bytes) : Option (DiskItem × Bytes) :=
  (readLe 32 bs).bind fun (h, bs) => (readLe 8 bs).bind fun (s, bs) =>
    (readLe 8 bs).bind fun (t, bs) => (readLe 4 bs).map fun (n, bs) => (⟨h, s, t, n⟩, bs)

def decItems : Nat → Bytes → Option (List DiskItem × Bytes)
  | 0, bs => some ([], bs)
  | n + 1, bs => (decItem bs).bind fun (i, bs) => (decItems n bs).map fun (l, bs) => (i :: l, bs)

/-- `#[derive(Serialize, Deserialize)]` on `FileStoreIndex` with bincode. -/
def indexCodec : Codec DiskIndex where
  enc x := le 8 x.total ++ (le 8 x.files.length ++ (x.files.map encItem).flatten)
  dec bs := (readLe 8 bs).bind fun (t, bs) => (readLe 8 bs).bind fun (n, bs) =>
    (decItems n bs).map fun (l, _) => ⟨t, l⟩

end TM.Storage
