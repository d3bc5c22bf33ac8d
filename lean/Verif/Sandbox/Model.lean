import Verif.Dag.Model
/-!
# The files of the sandboxes (`task-maker-exec/src/sandbox.rs`)

`Sandbox::setup` puts in the directory of a sandbox the input files of the execution, as hard links to the files
of the store when it is possible, and the empty output files; then it sets the permissions of each of them.  The
store is the one of the whole process: the sandboxes of the other workers link the same files.

The file system is modelled with its inodes: a hard link is a name for the same inode, permissions are of the
inode.  The operations of all the sandboxes are interleaved in any order, together with what the programs do.
A mode has a bit for writing and one for executing; all the files can be read by their owner.  The user is not
the super user.

Simplifications: different paths are different files, directories can always be made, the fifo directory, the
`etc` directory and the files written when sandboxes are kept are not modelled.
-/
namespace TM.Sandbox
open TM

abbrev Bytes := List Nat

/-- An inode of the file system. -/
structure Inode where
  content : Bytes
  write : Bool
  exec : Bool
  deriving DecidableEq, Repr

/-- The files in the directory of a sandbox: the standard streams are beside the directory `box`. -/
inductive Place where
  | stdin
  | stdout
  | stderr
  | file (path : String)
  deriving DecidableEq, Repr

/-- The directory of a sandbox: its files and if the program may make new ones. -/
structure Box where
  files : Place → Option Nat
  readOnly : Bool

/-- The state of the file system: the inodes (those from `next` on are not used yet), the files of the store and
the sandboxes.  `linkable` is false if the store and the sandboxes are in different file systems. -/
structure World where
  inode : Nat → Inode
  next : Nat
  store : FileStoreKey → Option Nat
  box : Nat → Option Box
  linkable : Bool

/-- What happens to the files. -/
inductive Op where
  /-- A new sandbox: its directory is made, sandbox.rs:113-114, 469-471 -/
  | start (b : Nat) (readOnly : Bool)
  /-- `hard_link` or `copy` of `write_sandbox_file`, sandbox.rs:537-541 -/
  | link (b : Nat) (pl : Place) (key : FileStoreKey)
  /-- `set_permissions` of `write_sandbox_file`, sandbox.rs:542-546: 0o500 or 0o400 -/
  | chmod (b : Nat) (pl : Place) (exec : Bool)
  /-- `touch_file`, sandbox.rs:551-558, with mode 0o600 -/
  | touch (b : Nat) (pl : Place)
  /-- The program writes a file it may write -/
  | write (b : Nat) (pl : Place) (content : Bytes)
  /-- The program makes a file -/
  | create (b : Nat) (pl : Place)
  /-- The program removes a file -/
  | unlink (b : Nat) (pl : Place)
  /-- The program changes the mode of a file, sandbox.rs:387-390: the system call is allowed if the sandbox is not
  read only -/
  | progChmod (b : Nat) (pl : Place) (write exec : Bool)
  /-- The directory of the sandbox is removed, sandbox.rs:590-599 -/
  | finish (b : Nat)
  /-- `FileStore::store`, task-maker-store/src/lib.rs:211-259: a file that is already there is kept -/
  | storeFile (key : FileStoreKey) (content : Bytes)
  /-- `FileStore::remove_file`, task-maker-store/src/lib.rs:328-340: the mode becomes 0o600, then it is removed -/
  | removeFile (key : FileStoreKey)
  deriving DecidableEq, Repr

/-- The function with another value in one point. -/
def upd {A B : Type} [DecidableEq A] (f : A → B) (a : A) (b : B) : A → B := fun x => if x = a then b else f x

/-- The file system with the place `pl` of the sandbox `b` set. -/
def World.setFile (w : World) (b : Nat) (bx : Box) (pl : Place) (i : Option Nat) : World :=
  { w with box := upd w.box b (some { bx with files := upd bx.files pl i }) }

/-- The inode at a place. -/
def World.at (w : World) (b : Nat) (pl : Place) : Option Nat := (w.box b).bind (fun bx => bx.files pl)

/-- The effect of an operation; nothing if it fails. -/
def Op.apply (w : World) : Op → Option World
  | .start b ro => match w.box b with
    | some _ => none
    | none => some { w with box := upd w.box b (some ⟨fun _ => none, ro⟩) }
  | .link b pl key => match w.store key, w.box b with
    | some i, some bx => match bx.files pl with
      | some j => if (w.inode j).write then
          some { w with inode := upd w.inode j (w.inode i) } else none
      | none => if w.linkable then some (w.setFile b bx pl (some i)) else
          some { w.setFile b bx pl (some w.next) with
            inode := upd w.inode w.next (w.inode i)
            next := w.next + 1 }
    | _, _ => none
  | .chmod b pl x => match w.at b pl with
    | some i => some { w with inode := upd w.inode i { w.inode i with write := false, exec := x } }
    | none => none
  | .touch b pl => match w.box b with
    | none => none
    | some bx => match bx.files pl with
      | some j => if (w.inode j).write then
          some { w with inode := upd w.inode j ⟨[], true, false⟩ } else none
      | none => some { w.setFile b bx pl (some w.next) with
            inode := upd w.inode w.next ⟨[], true, false⟩
            next := w.next + 1 }
  | .write b pl c => match w.at b pl with
    | some i => if (w.inode i).write then some { w with inode := upd w.inode i { w.inode i with content := c } } else none
    | none => none
  | .create b pl => match w.box b with
    | none => none
    | some bx => if bx.readOnly = false ∧ bx.files pl = none then
        some { w.setFile b bx pl (some w.next) with
            inode := upd w.inode w.next ⟨[], true, false⟩
            next := w.next + 1 }
      else none
  | .unlink b pl => match w.box b with
    | none => none
    | some bx => if bx.readOnly then none else some (w.setFile b bx pl none)
  | .progChmod b pl wr x => match w.box b with
    | none => none
    | some bx => if bx.readOnly then none else match bx.files pl with
      | some i => some { w with inode := upd w.inode i { w.inode i with write := wr, exec := x } }
      | none => none
  | .finish b => some { w with box := upd w.box b none }
  | .storeFile key c => match w.store key with
    | some _ => some w
    | none => some { w with
        store := upd w.store key (some w.next)
        inode := upd w.inode w.next ⟨c, false, false⟩
        next := w.next + 1 }
  | .removeFile key => match w.store key with
    | none => none
    | some i => some { w with
        store := upd w.store key none
        inode := upd w.inode i { w.inode i with write := true } }

/-- A file of the store is removed only when no sandbox uses it: the job has a handle on each of its files (C21). -/
def Allowed (w : World) : Op → Prop
  | .removeFile key => ∀ i b pl, w.store key = some i → w.at b pl ≠ some i
  | _ => True

/-- A program changes the mode only of files it may write (the linker does so with the executable it makes); in a
read only sandbox it cannot change any. -/
def Polite (w : World) : Op → Prop
  | .progChmod b pl _ _ => ∀ i, w.at b pl = some i → (w.inode i).write = true
  | _ => True

/-- A sequence of operations, each of them satisfying `P`, from one state to another. -/
inductive Run (P : World → Op → Prop) : World → List Op → World → Prop
  | nil (w : World) : Run P w [] w
  | cons {w w₁ w₂ : World} {op : Op} {h : List Op} : Allowed w op → P w op → op.apply w = some w₁ → Run P w₁ h w₂ →
      Run P w (op :: h) w₂

/-- When the worker is started: an empty store and no sandbox. -/
def World.init (linkable : Bool) : World := ⟨fun _ => ⟨[], false, false⟩, 0, fun _ => none, fun _ => none, linkable⟩

/-- What is in a file of a sandbox. -/
def World.file (w : World) (b : Nat) (pl : Place) : Option Inode := (w.at b pl).map w.inode

/-- What is in a file of the store. -/
def World.content (w : World) (key : FileStoreKey) : Option Bytes := (w.store key).map (fun i => (w.inode i).content)

/-- The operation for a stream or an input file: `write_sandbox_file`, sandbox.rs:529-548. -/
def writeOps (b : Nat) (pl : Place) (key : FileStoreKey) (exec : Bool) : List Op := [.link b pl key, .chmod b pl exec]

/-- The loop on the input files, sandbox.rs:495-504; nothing if a file is not given. -/
def inputOps (b : Nat) (deps : FileUuid → Option FileStoreKey) : AMap String ExecutionInput → Option (List Op)
  | [] => some []
  | (p, i) :: rest => (deps i.file).bind (fun key =>
      (inputOps b deps rest).map (fun ops => writeOps b (.file p) key i.executable ++ ops))

/-- The standard input, sandbox.rs:482-488. -/
def stdinOps (b : Nat) (deps : FileUuid → Option FileStoreKey) : Option FileUuid → Option (List Op)
  | none => some []
  | some f => (deps f).map (fun key => writeOps b .stdin key false)

/-- An empty file for a stream that is captured, sandbox.rs:489-494. -/
def streamOps (b : Nat) (pl : Place) : Option FileUuid → List Op
  | none => []
  | some _ => [.touch b pl]

/-- `Sandbox::setup`, sandbox.rs:457-515: the operations, in this order; nothing if a file is not given. `deps` are
the files given to the job. -/
def setupOps (b : Nat) (e : Execution) (deps : FileUuid → Option FileStoreKey) : Option (List Op) :=
  (stdinOps b deps e.stdin).bind (fun sin => (inputOps b deps e.inputs).map (fun ins =>
    .start b e.limits.readOnly :: (sin ++ streamOps b .stdout e.stdout ++ streamOps b .stderr e.stderr ++ ins ++
      e.outputs.map (fun p => Op.touch b (.file p.1)))))

/-- The operation is about the sandbox. -/
def Op.box? : Op → Option Nat
  | .start b _ | .link b _ _ | .chmod b _ _ | .touch b _ | .write b _ _ | .create b _ | .unlink b _
  | .progChmod b _ _ _ | .finish b => some b
  | .storeFile _ _ | .removeFile _ => none

/-- The operation is about the place. -/
def Op.place? : Op → Option (Nat × Place)
  | .link b pl _ | .chmod b pl _ | .touch b pl | .write b pl _ | .create b pl | .unlink b pl
  | .progChmod b pl _ _ => some (b, pl)
  | .start _ _ | .finish _ | .storeFile _ _ | .removeFile _ => none

end TM.Sandbox
