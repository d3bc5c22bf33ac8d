import Verif.Base.AMap
import Verif.Proto.Messages
/-!
# The client (`task-maker-exec/src/client.rs`)

The client of an executor: what it does with the files it receives (`process_provided_file`) and its
message loop (`ExecutorClient::evaluate`).

Simplifications: the operations on the destination paths and the callbacks of the user do not fail;
directories are not modelled (`create_dir_all` succeeds); permissions are reduced to the executable
bit (a new file is created without it).
-/
namespace TM.Client

open TM.Proto

/-- A path of the disk of the client. -/
abbrev Path := String

/-- A file of the disk. -/
structure Node where
  content : Bytes
  exec : Bool
  deriving DecidableEq, Repr

/-- The disk: canonical paths to files. -/
abbrev Disk := Path → Option Node

/-- Writes a node. -/
def Disk.set (d : Disk) (p : Path) (n : Node) : Disk := fun q => if q = p then some n else d q

/-- `WriteToCallback`, `task-maker-dag/src/file.rs:19-26`. -/
structure WriteTo where
  dest : Path
  executable : Bool
  allowFailure : Bool
  deriving DecidableEq, Repr

/-- `FileCallbacks`, `task-maker-dag/src/file.rs:30-37`: `getContent` is the limit of the callback
for the content, `chunked` the number of callbacks for the chunks. -/
structure FileCallbacks where
  writeTo : Option WriteTo := none
  getContent : Option Nat := none
  chunked : Nat := 0
  deriving DecidableEq, Repr

/-- A call of a callback of the user. -/
inductive Call where
  /-- the content callback of a file -/
  | content (uuid : Nat) (buffer : Bytes)
  /-- the `i`-th chunk callback of a file -/
  | chunk (uuid i : Nat) (chunk : Bytes)
  /-- the `i`-th callback for the start of an execution -/
  | start (exec i worker : Nat)
  /-- the `i`-th callback for the end of an execution -/
  | done (exec i result : Nat)
  /-- the `i`-th callback for an execution skipped -/
  | skip (exec i : Nat)
  deriving DecidableEq, Repr

/-- The calls of all the chunk callbacks of a file with one chunk,
`task-maker-exec/src/client.rs:419-421` and `428-430`. -/
def chunkCalls (uuid n : Nat) (chunk : Bytes) : List Call :=
  (List.range n).map (fun i => .chunk uuid i chunk)

/-- `task-maker-exec/src/client.rs:372-413`: whether the destination is going to be written.
`canon` resolves a path (symbolic links); `canonicalize` fails on files that do not exist. -/
def shouldWrite (canon : Path → Path) (disk : Disk) (w : WriteTo) (success : Bool)
    (source : Option Path) : Bool :=
  if !success && !w.allowFailure then false
  else match source with
    | some src =>
      if (disk (canon src)).isSome && (disk (canon w.dest)).isSome && canon src = canon w.dest then
        false
      else true
    | none => true

/-- `File::create`: truncates, keeping the permissions of an existing file. -/
def createFile (disk : Disk) (p : Path) : Disk :=
  disk.set p { content := [], exec := match disk p with | some n => n.exec | none => false }

/-- `write_all` on a file just created. -/
def appendFile (disk : Disk) (p : Path) (b : Bytes) : Disk :=
  match disk p with
  | some n => disk.set p { n with content := n.content ++ b }
  | none => disk

/-- The state of the loop over the chunks. -/
structure Loop where
  disk : Disk
  buffer : Bytes := []
  calls : List Call := []

/-- The body of the loop, `task-maker-exec/src/client.rs:414-426`. -/
def Loop.step (uuid chunked limit : Nat) (file : Option Path) (s : Loop) (chunk : Bytes) : Loop :=
  { disk := match file with
      | some p => appendFile s.disk p chunk
      | none => s.disk
    calls := s.calls ++ chunkCalls uuid chunked chunk
    buffer :=
      if s.buffer.length < limit then
        s.buffer ++ chunk.take (min chunk.length (limit - s.buffer.length))
      else s.buffer }

/-- The destination file, if it is going to be written, `task-maker-exec/src/client.rs:372-413`. -/
def target (canon : Path → Path) (disk : Disk) (cb : FileCallbacks) (success : Bool)
    (source : Option Path) : Option Path :=
  match cb.writeTo with
  | some w => if shouldWrite canon disk w success source then some (canon w.dest) else none
  | none => none

/-- `File::create` and the loop over the chunks, `task-maker-exec/src/client.rs:405-426`. -/
def afterLoop (disk : Disk) (uuid : Nat) (cb : FileCallbacks) (chunks : List Bytes)
    (file : Option Path) : Loop :=
  chunks.foldl (Loop.step uuid cb.chunked (cb.getContent.getD 0) file)
    { disk := match file with
        | some p => createFile disk p
        | none => disk }

/-- Making the destination executable, `task-maker-exec/src/client.rs:432-444`. -/
def setExecutable (canon : Path → Path) (cb : FileCallbacks) (d : Disk) : Disk :=
  match cb.writeTo with
  | some w => match d (canon w.dest) with
    | some n => if w.executable then d.set (canon w.dest) { n with exec := true } else d
    | none => d
  | none => d

/-- `process_provided_file` when the file has callbacks,
`task-maker-exec/src/client.rs:365-449`: the new disk, the callbacks left and the calls made. -/
def processFile (canon : Path → Path) (disk : Disk) (uuid : Nat) (cb : FileCallbacks)
    (success : Bool) (chunks : List Bytes) (source : Option Path) :
    Disk × FileCallbacks × List Call :=
  let s := afterLoop disk uuid cb chunks (target canon disk cb success source)
  let calls := s.calls ++ chunkCalls uuid cb.chunked []
  match cb.getContent with
  | some _ => (setExecutable canon cb s.disk, { cb with getContent := none },
      calls ++ [.content uuid s.buffer])
  | none => (setExecutable canon cb s.disk, cb, calls)

/-- The callbacks of an execution, `ExecutionCallbacks`: how many of each kind are left. -/
structure ExecCallbacks where
  onStart : Nat := 0
  onDone : Nat := 0
  onSkip : Nat := 0
  deriving DecidableEq, Repr

/-- A file handed over to `process_provided_file`, recorded for the specification. -/
structure Delivery where
  uuid : Nat
  success : Bool
  content : Bytes
  deriving DecidableEq, Repr

/-- The state of `ExecutorClient::evaluate`. -/
structure Client where
  fileCallbacks : AMap Nat FileCallbacks
  execCallbacks : AMap Nat ExecCallbacks
  disk : Disk
  /-- `missing_files`, `task-maker-exec/src/client.rs:99` -/
  missing : Option Nat := none
  /-- the loop has ended -/
  ended : Bool := false
  /-- the calls of the callbacks, in order -/
  calls : List Call := []
  /-- the messages sent, in order -/
  sent : List (ClientMsg Unit) := []
  /-- the files handed over, in order (ghost) -/
  delivered : List Delivery := []

/-- `process_provided_file`, `task-maker-exec/src/client.rs:358-454`. -/
def Client.process (canon : Path → Path) (c : Client) (uuid : Nat) (success : Bool)
    (chunks : List Bytes) (source : Option Path) : Client :=
  let c : Client :=
    { c with delivered := c.delivered ++ [{ uuid, success, content := chunks.flatten }] }
  match c.fileCallbacks.get? uuid with
  | some cb =>
    let r := processFile canon c.disk uuid cb success chunks source
    { c with
      disk := r.1
      fileCallbacks := c.fileCallbacks.insert uuid r.2.1
      calls := c.calls ++ r.2.2 }
  | none => c

/-- The test of the loop, `task-maker-exec/src/client.rs:100`:
`while missing_files.unwrap_or(1) > 0`. -/
def Client.loopTest (c : Client) : Client := { c with ended := c.ended || c.missing.getD 1 == 0 }

/-- The files of `Done`, `task-maker-exec/src/client.rs:174-206`: those in the local store are
processed, the others are asked.  `fetch` is the local store: the content of a key, in chunks. -/
def Client.onDone (canon : Path → Path) (fetch : Nat → Option (List Bytes)) (c : Client) :
    List (Nat × Nat × Bool) → Nat → Client × Nat
  | [], missing => (c, missing)
  | (uuid, key, success) :: rest, missing =>
    match fetch key with
    | some chunks => (c.process canon uuid success chunks none).onDone canon fetch rest missing
    | none =>
      Client.onDone canon fetch { c with sent := c.sent ++ [.askFile uuid key success] } rest
        (missing + 1)

/-- One turn of the loop, `task-maker-exec/src/client.rs:101-217`, on a message of the server (with
the file that follows it if it announces one, in chunks).  The answer to `AskFile` is a transfer,
modelled in `Verif.Proto`; here only the announcing message is recorded.  `keyOf` gives the key of a
provided file. -/
def Client.handle (canon : Path → Path) (fetch : Nat → Option (List Bytes)) (keyOf : Nat → Nat)
    (c : Client) : ServerMsg Nat Unit × List Bytes → Client
  | (.askFile uuid, _) => { c with sent := c.sent ++ [.provideFile uuid (keyOf uuid)] }
  | (.provideFile uuid success, chunks) =>
    { c with missing := c.missing.map (· - 1) }.process canon uuid success chunks none
  | (.notifyStart uuid worker, _) =>
    match c.execCallbacks.get? uuid with
    | some cb =>
      { c with
        execCallbacks := c.execCallbacks.insert uuid { cb with onStart := 0 }
        calls := c.calls ++ (List.range cb.onStart).map (fun i => .start uuid i worker) }
    | none => c
  | (.notifyDone uuid result, _) =>
    match c.execCallbacks.get? uuid with
    | some cb =>
      { c with
        execCallbacks := c.execCallbacks.insert uuid { cb with onDone := 0 }
        calls := c.calls ++ (List.range cb.onDone).map (fun i => .done uuid i result) }
    | none => c
  | (.notifySkip uuid, _) =>
    match c.execCallbacks.get? uuid with
    | some cb =>
      { c with
        execCallbacks := c.execCallbacks.insert uuid { cb with onSkip := 0 }
        calls := c.calls ++ (List.range cb.onSkip).map (fun i => .skip uuid i) }
    | none => c
  | (.error _, _) => { c with sent := c.sent ++ [.stop], ended := true }
  | (.status _, _) => c
  | (.done files, _) =>
    let r := c.onDone canon fetch files 0
    { r.1 with missing := some r.2 }

/-- The loop on the messages received. -/
def Client.run (canon : Path → Path) (fetch : Nat → Option (List Bytes)) (keyOf : Nat → Nat)
    (c : Client) : List (ServerMsg Nat Unit × List Bytes) → Client
  | [] => c
  | m :: ms =>
    if c.ended then c
    else Client.run canon fetch keyOf (c.handle canon fetch keyOf m).loopTest ms

/-- `ExecutorClient::start_evaluation`, `task-maker-exec/src/client.rs:234-264`: the callbacks of
the provided files (each with its path if it is a file of the disk, and its chunks) are called
before sending the DAG. -/
def Client.start (canon : Path → Path) (c : Client) :
    List (Nat × Option Path × List Bytes) → Client
  | [] => { c with sent := c.sent ++ [.evaluate ()] }
  | (uuid, source, chunks) :: rest => (c.process canon uuid true chunks source).start canon rest

end TM.Client
