import Verif.Sandbox.Command
/-!
# A sandbox by hand (`task-maker-tools sandbox`, src/tools/sandbox.rs)

Model of `main_sandbox`: the configuration that is given to tabox, and the files in `/etc`.  Theorems: `Verif.Sandbox.PropsShell`.
Simplified: Linux only; the failures of the file system are left out; the command line is already parsed.
-/
namespace TM.Sandbox
open TM TM.Worker

abbrev Text := List Char

/-- `SandboxOpt`, sandbox.rs:18-59 -/
structure ShellOpt where
  workdir : Option Path
  /-- KiB -/
  memoryLimit : Option Nat
  /-- KiB -/
  stackLimit : Option Nat
  singleProcess : Bool
  readableDirs : List Path
  mountTmpfs : Bool
  mountProc : Bool
  uid : Nat
  gid : Nat
  command : List String

/-- What is given to tabox, and the files that are written. -/
structure Shell where
  cmd : Command
  /-- bytes -/
  memoryLimit : Option Nat
  /-- bytes -/
  stackLimit : Option Nat
  multiprocess : Bool
  allowChmod : Bool
  passwd : Text
  group : Text

/-- `limit * 1024` of an `u64`, without overflow checks (the release build), sandbox.rs:121-126 -/
def kib (n : Nat) : Nat := n * 1024 % 2 ^ 64

/-- A number in a text, `format!`. -/
def digits (n : Nat) : Text := Nat.toDigits 10 n

/-- `/etc/passwd`, sandbox.rs:76-84 -/
def passwdFile (uid gid : Nat) : Text :=
  "root::0:0::/:/bin/sh\n".toList ++ ("nobody::".toList ++ digits uid ++ ":".toList ++ digits gid ++ "::/:/bin/sh\n".toList)

/-- `/etc/group`, sandbox.rs:86-93 -/
def groupFile (gid : Nat) : Text := "root:x:0:root\n".toList ++ ("nobody:x:".toList ++ digits gid ++ ":nobody\n".toList)

/-- `main_sandbox`, sandbox.rs:61-146.  `cwd`: `current_dir`, if it succeeds; `etc`: the new temporary directory. -/
def shell (h : Host) (cwd : Option Path) (etc : Path) (o : ShellOpt) : Shell where
  cmd :=
    { mounts :=
        ⟨(o.workdir.or cwd).getD ⟨true, []⟩, boxRoot, true⟩ :: ⟨etc, ⟨true, ["etc"]⟩, true⟩ ::
          ((readableDirs.map Path.parse).filter h.isDir ++ o.readableDirs.filter h.isDir).map asIs
      env := ["PATH", "LANG", "LC_ALL"].map (fun k => (k, (h.var k).getD ""))
      executable := match o.command with
        | [] => ⟨true, ["bin", "bash"]⟩
        | c :: _ => .parse c
      args := o.command.tail
      tmpfs := o.mountTmpfs
      proc := o.mountProc
      uid := o.uid
      gid := o.gid
      cwd := boxRoot }
  memoryLimit := o.memoryLimit.map kib
  stackLimit := o.stackLimit.map kib
  multiprocess := !o.singleProcess
  allowChmod := true
  passwd := passwdFile o.uid o.gid
  group := groupFile o.gid

/-! ## Specification -/

/-- The parts of a text between the separators. -/
def parts (sep : Char) : Text → List Text
  | [] => [[]]
  | c :: t =>
    if c = sep then [] :: parts sep t
    else match parts sep t with
      | [] => [[c]]
      | p :: ps => (c :: p) :: ps

/-- A file of records: the fields of the lines, each ended by a new line. -/
def records (t : Text) : List (List Text) := ((parts '\n' t).dropLast).map (parts ':')

end TM.Sandbox
