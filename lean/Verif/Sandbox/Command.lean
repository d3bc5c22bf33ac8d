import Verif.Sandbox.Limits
/-!
# What the program is, and what it sees (`Sandbox::build_command`, task-maker-exec/src/sandbox.rs:324-452)

The rest of the configuration given to tabox: the mounted directories, the environment, the executable and its arguments.
Model; the theorems are in `Verif.Sandbox.PropsCommand`.
-/
namespace TM.Sandbox
open TM TM.Worker

/-- What is asked to the host machine. -/
structure Host where
  /-- `Path::is_dir` -/
  isDir : Path → Bool
  /-- `which::which` and then `canonicalize`: the file of a command of the system -/
  which : String → Option Path
  /-- `std::env::var` -/
  var : String → Option String
  /-- `validate_local_executable`, sandbox.rs:570-580: a file that is a known kind of executable -/
  runnable : Path → Bool

/-- A directory of the host that is seen in the sandbox. -/
structure Mount where
  source : Path
  target : Path
  writable : Bool
  deriving DecidableEq, Repr

/-- The part of the configuration of tabox that is not in `Config`. -/
structure Command where
  mounts : List Mount
  env : List (String × String)
  executable : Path
  args : List String
  tmpfs : Bool
  proc : Bool
  uid : Nat
  gid : Nat
  cwd : Path
  deriving DecidableEq, Repr

/-- `READABLE_DIRS`, sandbox.rs:28-39 -/
def readableDirs : List String :=
  ["/lib", "/lib64", "/usr", "/bin", "/opt", "/etc/alternatives/", "/var/lib/dpkg/alternatives/", "/var/lib/texmf/"]

/-- The loops of sandbox.rs:400-413: each directory, if it exists, once.  `mounted` is the set of those already mounted. -/
def mountDirs (h : Host) : List String → List Path → List Path
  | [], mounted => mounted
  | d :: ds, mounted =>
    if ¬ mounted.contains (.parse d) ∧ h.isDir (.parse d) then mountDirs h ds (mounted ++ [.parse d])
    else mountDirs h ds mounted

/-- A directory that is seen as it is. -/
def asIs (p : Path) : Mount := ⟨p, p, false⟩

/-- `Path::parent`, for paths that are not the root. -/
def Path.parent (p : Path) : Path := ⟨p.abs, p.comps.dropLast⟩

/-- sandbox.rs:335, 357-364: the environment, in the order it is set. -/
def buildEnv (h : Host) (e : Execution) : List (String × String) :=
  ("PATH", (h.var "PATH").getD "") :: e.copyEnv.filterMap (fun k => (h.var k).map (fun v => (k, v))) ++ e.env

/-- `build_command`, sandbox.rs:324-452: the rest of the configuration; `none` when the executable is not found. -/
def buildCommand (h : Host) (e : Execution) (boxdir : Path) (fifo : Option Path) : Option Command :=
  let fixed := ⟨boxdir.join ⟨false, ["box"]⟩, boxRoot, true⟩ :: ⟨boxdir.join ⟨false, ["etc"]⟩, ⟨true, ["etc"]⟩, true⟩ ::
    (match fifo with
    | some p => [⟨p, boxRoot.join ⟨false, fifoSandboxDir⟩, false⟩]
    | none => [])
  let dirs := mountDirs h (readableDirs ++ e.limits.extraReadableDirs) []
  let mk := fun (dirs : List Path) (exe : Path) =>
    { mounts := fixed ++ dirs.map asIs, env := buildEnv h e, executable := exe, args := e.args,
      tmpfs := e.limits.mountTmpfs, proc := e.limits.mountProc, uid := 1000, gid := 1000, cwd := boxRoot : Command }
  match e.command with
  | .system cmd =>
    match h.which cmd with
    | some exe => some (mk (if dirs.contains exe.parent then dirs else dirs ++ [exe.parent]) exe)
    | none => none
  | .localCmd cmd =>
    if h.runnable ((boxdir.join ⟨false, ["box"]⟩).join (.parse cmd)) then some (mk dirs (boxRoot.join (.parse cmd))) else none

/-! ## Specification -/

/-- `p` is inside of `d`, at `rest`. -/
def Path.Inside (p d : Path) (rest : List String) : Prop := p.abs = d.abs ∧ p.comps = d.comps ++ rest

/-- What the program finds at a path (the last directory mounted over it is the one that is seen): the path of the host
and whether it may be written. -/
def Sees (mounts : List Mount) (p : Path) (host : Path) (writable : Bool) : Prop :=
  ∃ before m after rest, mounts = before ++ m :: after ∧ p.Inside m.target rest ∧
    (∀ m' ∈ after, ∀ r, ¬ p.Inside m'.target r) ∧ host = ⟨m.source.abs, m.source.comps ++ rest⟩ ∧ writable = m.writable

end TM.Sandbox
