import Verif.Build.Model
/-!
# The known languages (`task-maker-lang/src/languages`)

Each language as the `Lang` that the construction of the DAG uses (`Build.Model`).  Names of files are those
given by `Path::file_name` and `file_stem` (both exist for a source file); the imports found in the
source (modelled in `Lang.Deps`) and `shell_words::split` are parameters.
-/

namespace TM.Known
open TM.Build

/-- The known languages, task-maker-lang/src/lib.rs:74-90. -/
inductive Kind where
  | cpp | c | python | shell | pascal | rust | csharp | js
deriving DecidableEq, Repr

/-- The environment variables, `shell_words::split` and the files that exist on the client. -/
structure Machine where
  env : String → Option String
  split : String → Option (List String)
  present : String → Bool
  /-- the directory above the one of the `fpc` found in the `PATH` -/
  fpcHome : Option String

/-- `LanguageCConfiguration` and `LanguageCppConfiguration`. -/
structure CConfig where
  compiler : ExecutionCommand
  std : String
  flags : List String

/-- task-maker-lang/src/languages/c.rs:36-52 `LanguageCConfiguration::from_env`: `none` is the panic on
flags that cannot be split. -/
def cConfig (m : Machine) : Option CConfig :=
  let compiler := ((m.env "TM_CC").or (m.env "CC")).getD "gcc"
  let std := (m.env "TM_CC_STD_VERSION").getD "c11"
  let flags := ((m.env "TM_CFLAGS").or (m.env "CFLAGS")).getD ""
  (m.split flags).map (fun fl => ⟨.system compiler, std, fl⟩)

/-- task-maker-lang/src/languages/cpp.rs:30-47 `LanguageCppConfiguration::from_env`. -/
def cppConfig (m : Machine) : Option CConfig :=
  let compiler := ((m.env "TM_CXX").or (m.env "CXX")).getD "g++"
  let std := (m.env "TM_CXX_STD_VERSION").getD "c++17"
  let flags := ((m.env "TM_CXXFLAGS").or (m.env "CXXFLAGS")).getD ""
  (m.split flags).map (fun fl => ⟨.system compiler, std, fl⟩)

/-- task-maker-lang/src/languages/rust.rs:23-30 `LanguageRustConfiguration::from_env`. -/
def rustupHome (m : Machine) : Option String := (m.env "TM_RUSTUP_HOME").or (m.env "RUSTUP_HOME")

/-- task-maker-lang/src/languages/pascal.rs:75-101 `find_fpc_cfg`. -/
def findFpcCfg (m : Machine) : Option String :=
  let tryPath (p : Option String) (next : Option String) : Option String :=
    match p with
    | some p => if m.present p then some p else next
    | none => next
  tryPath ((m.env "HOME").map (· ++ "/.fpc.cfg"))
    (tryPath ((m.env "PPC_CONFIG_PATH").map (· ++ "/fpc.cfg"))
      (tryPath (m.fpcHome.map (· ++ "/etc/fpc.cfg"))
        (if m.present "/etc/fpc.cfg" then some "/etc/fpc.cfg" else none)))

/-- A source file: its name, its name without extension, the name of the file its executable is written to
(`write_bin_to`), the imports found, whether it is linked statically. -/
structure Source where
  fileName : String
  stem : String
  writeTo : Option String := none
  imports : List DepSpec := []
  linkStatic : Bool := false

/-- task-maker-lang/src/language.rs:83-89 `executable_name`, and shell.rs:39-42. -/
def exeName (k : Kind) (s : Source) : String :=
  match k with
  | .shell => s.fileName
  | _ => s.writeTo.getD s.stem

/-- task-maker-lang/src/language.rs:158-168: the name of the source for the compiler. -/
def sourceName (s : Source) : String :=
  if s.fileName.toList.head? = some '-' then "./" ++ s.fileName else s.fileName

/-- The arguments of gcc and g++, c.rs:78-96 and cpp.rs:79-97. -/
def gccArgs (cfg : CConfig) (math : List String) (s : Source) : List String :=
  ["-O2", "-Wall", "-ggdb3", "-DEVAL", "-fdiagnostics-color=always", "-std=" ++ cfg.std, "-o", "__compiled"] ++
    math ++ cfg.flags ++ (if s.linkStatic then ["-static"] else [])

/-- `compilation_builder` of the languages: c.rs:67-103, cpp.rs:68-104, pascal.rs:39-68, rust.rs:62-104,
csharp.rs:36-60; none for the others. -/
def compiler (m : Machine) (cc cxx : CConfig) (k : Kind) (s : Source) : Option Compiler :=
  match k with
  | .c => some { command := cc.compiler, args := gccArgs cc ["-lm"] s, deps := s.imports, sourceName := sourceName s }
  | .cpp => some { command := cxx.compiler, args := gccArgs cxx [] s, deps := s.imports, sourceName := sourceName s }
  | .pascal => some {
      command := .system "fpc"
      args := ["-dEVAL", "-Fe/dev/stderr", "-O2", "-XS", "-o" ++ "__compiled"]
      deps := (findFpcCfg m).toList.map (fun p => ⟨p, "fpc.cfg", false⟩)
      sourceName := sourceName s }
  | .rust => some {
      command := .system "rustc"
      args := ["-O", "--cfg", "EVAL", "-o", "__compiled"] ++
        (if s.linkStatic then ["--target", "x86_64-unknown-linux-musl"] else [])
      deps := []
      sourceName := "source.rs"
      graderOnly := true
      env := fun e => match rustupHome m with
        | some p => e.insert "RUSTUP_HOME" p
        | none => e
      limits := fun l => match rustupHome m with
        | some p => { l with extraReadableDirs := l.extraReadableDirs ++ [p] }
        | none => l }
  | .csharp => some {
      command := .system "mcs"
      args := ["-define:EVAL", "-optimize+", "-out:" ++ "__compiled"]
      deps := []
      sourceName := sourceName s
      limits := fun l => { l with extraReadableDirs := l.extraReadableDirs ++ ["/etc/mono"] } }
  | .python => none
  | .shell => none
  | .js => none

/-- `runtime_command`: language.rs:43-45, csharp.rs:62-64, javascript.rs:35-37; Python is always
`Autodetect`, python.rs:56-58. -/
def runCommand (k : Kind) (s : Source) : ExecutionCommand :=
  match k with
  | .csharp => .system "mono"
  | .js => .system "node"
  | _ => .localCmd (exeName k s)

/-- `runtime_args`: language.rs:48-55, csharp.rs:66-78, javascript.rs:39-51, python.rs:64-74. -/
def runArgs (k : Kind) (s : Source) (args : List String) : List String :=
  match k with
  | .csharp => args ++ [exeName k s]
  | .js => args ++ [exeName k s]
  | _ => args

/-- `custom_limits`: csharp.rs:80-85, javascript.rs:53-55, shell.rs:35-37. -/
def runLimits (k : Kind) (l : ExecutionLimits) : ExecutionLimits :=
  match k with
  | .csharp => { l with extraReadableDirs := l.extraReadableDirs ++ ["/etc/mono"], mountProc := true,
                        allowMultiprocess := true }
  | .js => { l with allowMultiprocess := true }
  | .shell => { l with allowMultiprocess := true }
  | _ => l

/-- `name`. -/
def langName : Kind → String
  | .cpp => "C++"
  | .c => "C"
  | .python => "Python / Autodetect"
  | .shell => "Shell"
  | .pascal => "Pascal / fpc"
  | .rust => "Rust"
  | .csharp => "C#"
  | .js => "JavaScript"

/-- The language of a source file, as the construction of the DAG sees it. -/
def lang (m : Machine) (cc cxx : CConfig) (k : Kind) (s : Source) : Lang where
  name := langName k
  compiler := compiler m cc cxx k s
  command := runCommand k s
  runArgs := runArgs k s
  deps := match k with
    | .python => s.imports
    | _ => []
  limits := runLimits k
  exeName := exeName k s

end TM.Known
