/-!
# Recognising executables (`task-maker-exec/src/detect_exe.rs`)

A file is the list of its bytes (naturals; nothing depends on them being below 256).  Opening and
reading a regular file do not fail here: the only error is the end of the file.
-/

namespace TM.Remote

/-- task-maker-exec/src/detect_exe.rs:9-14 `ExecutablePlatform`. -/
inductive Platform where
  | linux | windows | macOs | macOsFat
deriving DecidableEq, Repr

/-- task-maker-exec/src/detect_exe.rs:18-22 `ExecutableBits`. -/
inductive Bits where
  | unknown | bits32 | bits64
deriving DecidableEq, Repr

/-- task-maker-exec/src/detect_exe.rs:25-55 `PATTERNS`, in order. -/
def patterns : List (List Nat × (Platform × Bits)) :=
  [([0x4D, 0x5A], (.windows, .unknown)),
   ([0x23, 0x21], (.linux, .unknown)),
   ([0xCE, 0xFA, 0xED, 0xFE], (.macOs, .bits32)),
   ([0xCF, 0xFA, 0xED, 0xFE], (.macOs, .bits64)),
   ([0xBE, 0xBA, 0xFE, 0xCA], (.macOsFat, .bits32)),
   ([0xBF, 0xBA, 0xFE, 0xCA], (.macOsFat, .bits64)),
   ([0x7F, 0x45, 0x4C, 0x46, 0x01], (.linux, .bits32)),
   ([0x7F, 0x45, 0x4C, 0x46, 0x02], (.linux, .bits64))]

/-- The three answers of `detect_exe`: `Err(_)`, `Ok(None)`, `Ok(Some(_))`. -/
inductive Detected where
  | err
  | unknown
  | exe (p : Platform) (b : Bits)
deriving DecidableEq, Repr

/-- task-maker-exec/src/detect_exe.rs:70-81, the `read_exact` of the missing bytes of the header: `none`
when the file ends before.  `rest` is what has not been read. -/
def extend (header rest : List Nat) (n : Nat) : Option (List Nat × List Nat) :=
  if header.length < n then
    let missing := n - header.length
    if rest.length < missing then none
    else some (header ++ rest.take missing, rest.drop missing)
  else some (header, rest)

/-- task-maker-exec/src/detect_exe.rs:70-84, the loop. -/
def detectGo (header rest : List Nat) : List (List Nat × (Platform × Bits)) → Detected
  | [] => .unknown
  | (bytes, p, b) :: ps =>
    match extend header rest bytes.length with
    | none => .err
    | some (h, r) => if bytes.isPrefixOf h then .exe p b else detectGo h r ps

/-- task-maker-exec/src/detect_exe.rs:62-85 `detect_exe` on a file that can be opened. -/
def detect (content : List Nat) : Detected := detectGo [] content patterns

/-- What is at the path of the executable: a regular file (with its bytes) or something else. -/
inductive AtPath where
  | file (content : List Nat)
  | other
deriving DecidableEq, Repr

/-- task-maker-exec/src/sandbox.rs:567-581 `validate_local_executable`: whether it returns `Ok`. -/
def validateLocal : AtPath → Bool
  | .other => false
  | .file c =>
    match detect c with
    | .err => false
    | .unknown => false
    | .exe _ _ => true

end TM.Remote
