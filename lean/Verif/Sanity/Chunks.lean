import Verif.Dag.Model
import Verif.Base.Sort
/-!
# Sanity checks on the contents of the files (`task-maker-format/src/ioi/sanity_checks/io.rs`,
`subtasks.rs:107-232`, `att.rs:462-510`)

`IOEndWithNewLine`, `AttEndWithNewLine` and `AllOutputsEqual` read the files of the testcases as the
client gets them, one chunk at a time.
-/
namespace TM.Sanity
open TM

abbrev Bytes := List UInt8

/-- The files of a testcase the sanity checks look at, `TestcaseInfo`, ioi/mod.rs. -/
structure Tc where
  id : Nat
  input : Option FileUuid
  output : Option FileUuid
  deriving DecidableEq, Repr

/-- A subtask, `SubtaskInfo`, ioi/mod.rs; `testcases` is a set. -/
structure St where
  id : Nat
  testcases : List Nat
  deriving DecidableEq, Repr

/-- The task: maps indexed by the ids. -/
structure Task where
  testcases : AMap Nat Tc
  subtasks : AMap Nat St
  deriving DecidableEq, Repr

/-- The client got a file: `process_provided_file`, task-maker-exec/src/client.rs:350-440, calls the
callbacks of the file on each chunk and at the end on an empty one. -/
structure Delivery where
  file : FileUuid
  chunks : List Bytes
  deriving DecidableEq, Repr

/-! ## Files that do not end with a new line -/

/-- The input and the official output files. -/
inductive Kind where
  | input
  | output
  deriving DecidableEq, Repr

/-- `CheckEndWithNewLine`, io.rs:22-33, bound to a file. -/
structure Ender where
  file : FileUuid
  kind : Kind
  path : String
  ends : Bool := true
  binary : Bool := false
  deriving DecidableEq, Repr

/-- `add_chunk`, io.rs:56-66, the state. -/
def Ender.add (e : Ender) (c : Bytes) : Ender :=
  let e := { e with binary := e.binary || c.contains 0 }
  if c.isEmpty then e else { e with ends := c.getLast? == some 10 }

/-- `add_chunk`, io.rs:58-61: whether the path is put in the list. -/
def Ender.pushes (e : Ender) (c : Bytes) : Bool := c.isEmpty && !e.ends && !(e.add c).binary

/-- `IOEndWithNewLine`, io.rs:12-18, with the callbacks. -/
structure NewLine where
  enders : List Ender := []
  inputs : List String := []
  outputs : List String := []
  deriving DecidableEq, Repr

/-- The path shown, io.rs:104, 112. -/
def Kind.path (id : Nat) : Kind → String
  | .input => s!"input/input{id}.txt"
  | .output => s!"output/output{id}.txt"

/-- The callbacks of a testcase, io.rs:100-116. -/
def Tc.enders (id : Nat) (t : Tc) : List Ender :=
  (t.input.toList.map (fun f => ⟨f, .input, Kind.path id .input, true, false⟩)) ++
  (t.output.toList.map (fun f => ⟨f, .output, Kind.path id .output, true, false⟩))

/-- `IOEndWithNewLine::pre_hook`, io.rs:99-118. -/
def NewLine.pre (task : Task) : NewLine where
  enders := task.testcases.flatMap (fun p => p.2.enders p.1)

/-- The paths put in a list by the callbacks of a file. -/
def NewLine.pushed (s : NewLine) (k : Kind) (f : FileUuid) (c : Bytes) : List String :=
  ((s.enders.filter (fun e => e.file = f ∧ e.kind = k)).filter (·.pushes c)).map (·.path)

/-- A chunk of a file is given to its callbacks. -/
def NewLine.chunk (f : FileUuid) (s : NewLine) (c : Bytes) : NewLine where
  enders := s.enders.map (fun e => if e.file = f then e.add c else e)
  inputs := s.inputs ++ s.pushed .input f c
  outputs := s.outputs ++ s.pushed .output f c

/-- A whole file. -/
def NewLine.deliver (s : NewLine) (d : Delivery) : NewLine := (d.chunks ++ [[]]).foldl (NewLine.chunk d.file) s

/-- The list without repetitions, as a `HashSet` gives it. -/
def dedup : List String → List String
  | [] => []
  | a :: l => setInsert (dedup l) a

/-- `emit_warning`, io.rs:68-87: the files listed in the warning, if there is one. -/
def emitWarning (files : List String) : Option (List String) :=
  if files.isEmpty then none else some (isort strLe (dedup files))

/-- `post_hook`, io.rs:120-127. -/
def NewLine.post (s : NewLine) : Option (List String) × Option (List String) :=
  (emitWarning s.inputs, emitWarning s.outputs)

/-- The whole check. -/
def newLineCheck (task : Task) (ds : List Delivery) : Option (List String) × Option (List String) :=
  (ds.foldl NewLine.deliver (NewLine.pre task)).post

/-- An attachment: its path and its content; nothing if it cannot be read or if it is a directory. -/
structure Att where
  path : String
  content : Option Bytes
  deriving DecidableEq, Repr

/-- `AttEndWithNewLine::pre_hook` on an attachment, att.rs:475-504: only the last byte is read. -/
def attOne (path : String) (content : Bytes) : List String :=
  let e : Ender := ⟨0, .input, path, true, false⟩
  let c := content.getLast?.toList
  let e' := e.add c
  (if e.pushes c then [path] else []) ++ (if e'.pushes [] then [path] else [])

/-- The loop, att.rs:475-506; nothing if the check stops with an error. -/
def attLoop (list : List String) : List Att → Option (List String)
  | [] => some list
  | a :: as => match a.content with
    | none => none
    | some c => attLoop (list ++ attOne a.path c) as

/-- `AttEndWithNewLine::pre_hook`, att.rs:473-508: the files of the warning, nothing on an error. -/
def attNewLine (atts : List Att) : Option (Option (List String)) := (attLoop [] atts).map emitWarning

/-! ## Outputs that are all equal -/

/-- `OutputHasher`, subtasks.rs:115-121, bound to a file: the hasher is the data it was given. -/
structure Hasher where
  file : FileUuid
  subtask : Nat
  first : Option Bytes := none
  data : Bytes := []
  deriving DecidableEq, Repr

/-- `add_chunk`, subtasks.rs:152-160. -/
def Hasher.add (e : Hasher) (c : Bytes) : Hasher :=
  if c.isEmpty then e
  else { e with first := (e.first.or (some c)), data := e.data ++ c }

/-- `TestcaseOutput`, subtasks.rs:109-113. -/
structure Out (H : Type) where
  first : Option Bytes
  hash : H
  deriving DecidableEq, Repr

/-- `AllOutputsEqual`, subtasks.rs:166-169, with the callbacks. -/
structure Equal (H : Type) where
  hashers : List Hasher := []
  outputs : AMap Nat (List (Out H)) := []
  deriving DecidableEq, Repr

/-- The official outputs of some testcases, subtasks.rs:189-194; nothing if a testcase does not exist. -/
def outFiles (task : Task) : List Nat → Option (List FileUuid)
  | [] => some []
  | k :: ks => match task.testcases.get? k with
    | none => none
    | some t => (outFiles task ks).map (t.output.toList ++ ·)

/-- A subtask in `pre_hook`, subtasks.rs:185-196. -/
def Equal.preSt {H : Type} (task : Task) (s : Equal H) (st : St) : Option (Equal H) :=
  if 2 ≤ st.testcases.length then
    (outFiles task st.testcases).map (fun fs =>
      ⟨s.hashers ++ fs.map (fun f => ⟨f, st.id, none, []⟩), s.outputs.insert st.id []⟩)
  else some s

/-- `pre_hook`, subtasks.rs:183-199; nothing if it panics. -/
def Equal.pre {H : Type} (task : Task) : List St → Equal H → Option (Equal H)
  | [], s => some s
  | st :: sts, s => match s.preSt task st with
    | none => none
    | some s => Equal.pre task sts s

/-- The end of a file for a callback, subtasks.rs:142-151. -/
def Equal.finish {H : Type} (hash : Bytes → H) (m : AMap Nat (List (Out H))) (e : Hasher) : AMap Nat (List (Out H)) :=
  match m.get? e.subtask with
  | none => m
  | some out => m.insert e.subtask (out ++ [⟨e.first, hash e.data⟩])

/-- A chunk of a file is given to its callbacks. -/
def Equal.chunk {H : Type} (hash : Bytes → H) (f : FileUuid) (s : Equal H) (c : Bytes) : Equal H where
  hashers := s.hashers.map (fun e => if e.file = f then e.add c else e)
  outputs := if c.isEmpty then (s.hashers.filter (fun e => e.file = f)).foldl (Equal.finish hash) s.outputs else s.outputs

/-- A whole file. -/
def Equal.deliver {H : Type} (hash : Bytes → H) (s : Equal H) (d : Delivery) : Equal H :=
  (d.chunks ++ [[]]).foldl (Equal.chunk hash d.file) s

/-- The warning on a subtask, subtasks.rs:215-227, with the first chunk of the outputs. -/
structure EqualWarning where
  subtask : Nat
  first : Bytes
  deriving DecidableEq, Repr

/-- The body of the loop of `post_hook`, subtasks.rs:204-228; nothing if it panics. -/
def equalOne {H : Type} [DecidableEq H] (task : Task) (id : Nat) (out : List (Out H)) : Option (List EqualWarning) :=
  match task.subtasks.get? id with
  | none => some []
  | some st =>
    if out.length ≠ st.testcases.length then some []
    else match out with
      | [] => none
      | o :: _ =>
        if out.all (fun x => x.hash = o.hash) then
          match o.first with
          | none => none
          | some c => some [⟨id, c⟩]
        else some []

/-- `post_hook`, subtasks.rs:201-231; nothing if it panics. -/
def Equal.post {H : Type} [DecidableEq H] (task : Task) : AMap Nat (List (Out H)) → Option (List EqualWarning)
  | [] => some []
  | p :: m => match equalOne task p.1 p.2 with
    | none => none
    | some w => (Equal.post task m).map (w ++ ·)

/-- The whole check. -/
def equalCheck {H : Type} [DecidableEq H] (hash : Bytes → H) (task : Task) (ds : List Delivery) :
    Option (List EqualWarning) :=
  match Equal.pre task task.subtasks.values ({} : Equal H) with
  | none => none
  | some s => Equal.post task (ds.foldl (Equal.deliver hash) s).outputs

end TM.Sanity
