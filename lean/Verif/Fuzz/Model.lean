import Verif.Build.Spec
/-!
# The tool that fuzzes the checker (`src/tools/fuzz_checker.rs` and `src/tools/fuzz_checker/fuzzer.cpp`)

The compilation of the fuzzer and libFuzzer itself are not modelled: any list of artifacts can come out of it.  Bytes are
numbers.  The operations on the file system do not fail, besides reading a file that is not there.
-/
namespace TM.Fuzz
open TM TM.Build

abbrev Bytes := List Nat

/-- `u32::to_le_bytes`. -/
def toLe (n : Nat) : Bytes := [n % 256, n / 256 % 256, n / 65536 % 256, n / 16777216 % 256]

/-- `u32::from_le_bytes`, and the `memcpy` of fuzzer.cpp:59 on a little endian machine. -/
def fromLe : Bytes → Nat
  | [a, b, c, d] => a + 256 * b + 65536 * c + 16777216 * d
  | _ => 0

/-- `num_testcases`, fuzz_checker.rs:123. -/
def numTestcases (task : Task) : Nat := (task.subtasks.values.map (fun st => st.testcases.length)).sum

/-- `initial_output_files`, fuzz_checker.rs:128-130. -/
def outputPath (dir : String) (i : Nat) : String := dir ++ "/output/output" ++ toString i ++ ".txt"

/-- The other file of a testcase, fuzz_checker.rs:581 and fuzzer.cpp:85. -/
def inputPath (dir : String) (i : Nat) : String := dir ++ "/input/input" ++ toString i ++ ".txt"

/-- `write_initial_corpus`, fuzz_checker.rs:182-223: the files made, in order; nothing if an output is missing.  `read` are
the files on disk. -/
def corpus (read : String → Option Bytes) (dir : String) : List Nat → Option (List Bytes)
  | [] => some []
  | i :: is => match read (outputPath dir i), corpus read dir is with
    | some c, some cs => some ((toLe i ++ c) :: cs)
    | _, _ => none

/-- The corpus of a task. -/
def initialCorpus (read : String → Option Bytes) (dir : String) (task : Task) : Option (List Bytes) :=
  corpus read dir (List.range (numTestcases task))

/-- What the fuzzer gives to the checker. -/
structure Call where
  input : String
  correct : String
  /-- what the contestant would have written -/
  output : Bytes
  deriving DecidableEq, Repr

/-- `LLVMFuzzerTestOneInput`, fuzzer.cpp:52-110: the checker is not called on less than five bytes. -/
def call (dir : String) (num : Nat) (data : Bytes) : Option Call :=
  if data.length ≤ 4 then none
  else
    let id := fromLe (data.take 4) % num
    some ⟨inputPath dir id, outputPath dir id, data.drop 4⟩

/-- A file written by libFuzzer. -/
structure Artifact where
  path : String
  /-- the file name -/
  name : List Char
  bytes : Bytes
  deriving DecidableEq, Repr

/-- The content of a directory `failures/fail-N`. -/
structure Failure where
  /-- the name of the file with the output, and what it contains -/
  outputName : List Char
  output : Bytes
  /-- where the links `input.txt`, `output.txt` and `artifact.bin` point to -/
  input : String
  correct : String
  artifact : String
  deriving DecidableEq, Repr

/-- The type of the failure: `artifact_name.split('-').next()`, fuzz_checker.rs:558. -/
def failType (name : List Char) : List Char := name.takeWhile (· ≠ '-')

/-- The body of the loop of `organize_failures`, fuzz_checker.rs:537-613; nothing if it fails (also if there are no
testcases: the code divides by zero). -/
def failureOf (dir : String) (num : Nat) (a : Artifact) : Option Failure :=
  if a.bytes.length < 4 ∨ num = 0 then none
  else
    let id := fromLe (a.bytes.take 4) % num
    some
      { outputName := "output-".toList ++ failType a.name ++ ".txt".toList
        output := a.bytes.drop 4
        input := inputPath dir id
        correct := outputPath dir id
        artifact := a.path }

/-- The loop: the directories made, and whether it went to the end. -/
def failuresOf (dir : String) (num : Nat) : List Artifact → List Failure × Bool
  | [] => ([], true)
  | a :: as => match failureOf dir num a with
    | none => ([], false)
    | some f => let r := failuresOf dir num as; (f :: r.1, r.2)

/-- `organize_failures`, fuzz_checker.rs:510-622: the directory `failures` afterwards (`fail-0`, `fail-1`, ...), if it
exists. -/
def organize (dir : String) (num : Nat) (old : Option (List Failure)) (artifacts : List Artifact) :
    Option (List Failure) × Bool :=
  if artifacts = [] then (old, true)
  else let r := failuresOf dir num artifacts; (some r.1, r.2)

/-- The output the README of a failure tells to give to the checker, src/tools/fuzz_checker/README:12. -/
def readmeOutput : List Char := "output-crash.txt".toList

end TM.Fuzz
