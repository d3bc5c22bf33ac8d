import Verif.Build.Samples
/-!
# The checker is tried on junk

Model of the `pre_hook` of `FuzzCheckerWithJunkOutput`, task-maker-format/src/ioi/sanity_checks/checker.rs:12-105, that
adds executions to the DAG after those of the task.  The callbacks are those of the samples (`SampleEvent.checker`, with
the description of the junk as the name), but for what they show.  The key of a content is a parameter.
-/
namespace TM.Build
open TM

/-- A junk output: its description and its bytes. -/
structure Junk where
  description : String
  bytes : List Nat
deriving DecidableEq, Repr

/-- `JUNK_OUTPUTS`, checker.rs:18-25. -/
def junkOutputs : List Junk :=
  [⟨"empty file", []⟩,
   ⟨"bytes from 0 to 255", List.range 256⟩,
   ⟨"ASCII from 32 to 127", (List.range 96).map (· + 32)⟩,
   ⟨"wibble monster", [119, 105, 98, 98, 108, 101, 32, 109, 111, 110, 115, 116, 101, 114]⟩]

/-- The testcase used, checker.rs:49-61: the first, in the order of the map, with both the input and the official
output. -/
def junkTestcase (task : Task) (io : GeneratedIo) : Option (FileUuid × FileUuid) :=
  task.testcases.keys.findSome? (fun k =>
    match io.get? k with
    | some (input, some output) => some (input, output)
    | _ => none)

/-- The body of the loop, checker.rs:63-101. -/
def addJunkOutput (fs : FS) (key : List Nat → FileStoreKey) (checker : Checker) (input official : FileUuid)
    (j : Junk) : B Unit := do
  let test ← fresh
  provideContent test (key j.bytes) j.bytes
  let e ← checker.checkSample fs j.description input official test
  addExec e

/-- `FuzzCheckerWithJunkOutput::pre_hook`, checker.rs:38-104. -/
def addJunk (fs : FS) (key : List Nat → FileStoreKey) (task : Task) (io : GeneratedIo) : B Unit :=
  match task.type with
  | .batch (.custom src) =>
    match junkTestcase task io with
    | none => pure ()
    | some (input, official) => each (addJunkOutput fs key (.custom src) input official) junkOutputs
  | _ => pure ()

/-- What is shown. -/
inductive JunkNote where
  /-- error, checker.rs:83-88 -/
  | scored (description : String) (score : Score.Score) (message : String)
  /-- errors of the checker, ioi/dag/checker.rs:108-124 and 128-141 -/
  | checkerBroken (description : String)
deriving DecidableEq, Repr

/-- `score != 0.0` -/
def notZero : Score.Score → Bool
  | .num x => x != 0
  | .nan => true

/-- What is shown when the checker ends on a junk output, checker.rs:82-90 and ioi/dag/checker.rs:92-145. -/
def junkNote (description : String) (o : Outcome) : Option JunkNote :=
  if o.success then
    match o.score with
    | some x => if notZero x then some (.scored description x o.message) else none
    | none => some (.checkerBroken description)
  else some (.checkerBroken description)

end TM.Build
