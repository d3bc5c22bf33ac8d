import Verif.Base.AMap
import Verif.Format.GenLine

/-!
# Reading `gen/GEN`

Model of `parse_gen_gen` (`task-maker-format/src/ioi/format/italian_yaml/gen_gen.rs` lines 27-212) and
of `cleanup_subtask_name` (`italian_yaml/mod.rs` lines 891-923).
-/
namespace TM.Format
open TM AMap

/-- What the reader takes from outside of the file. -/
structure GenEnv where
  /-- `get_validator(Some(id))`. -/
  validator : Nat → Validator
  /-- `get_output_gen(id)`. -/
  outputGen : Nat → OutputGen
  /-- The files matched by `gen/generator.*`, `gen/generatore.*`, ... (gen_gen.rs:67-79). -/
  generators : List Source
  /-- `task_dir.join(path)`. -/
  join : Text → Text
  /-- `str::nfkc`. -/
  nfkc : Text → Text
  /-- The general category of the character is one of `VALID_SUBTASK_NAME_CHARACTER_CATEGORIES`. -/
  okCategory : Char → Bool
  /-- `char::is_whitespace`, used by `str::trim`. -/
  isSpace : Char → Bool

/-- The reasons why a file is rejected. -/
inductive GenErr where
  | multipleGenerators
  | noGenerator
  | syntax
  | nameNotAfterSubtask
  | nameTwice
  | invalidName
  | duplicateName
  | depNotAfterSubtask
  | unknownName
  | noSolution
  deriving DecidableEq, Repr

/-- `str::trim`. -/
def trimWith (p : Char → Bool) (s : Text) : Text :=
  ((s.dropWhile p).reverse.dropWhile p).reverse

/-- `cleanup_subtask_name` (italian_yaml/mod.rs:892-923). -/
def cleanupName (env : GenEnv) (id : Text) : Option Text :=
  let normalized := env.nfkc (trimWith env.isSpace id)
  match normalized with
  | [] => none
  | c :: _ =>
    if c = '-' then none
    else if normalized.any (fun ch => ch == '*' || ch == '?' || !env.okCategory ch) then none
    else some normalized

/-- The value of a string of digits: `score.parse::<f64>()` on the `number` rule, exact. -/
def digitsVal (s : Text) : Nat := s.foldl (fun acc c => acc * 10 + (c.toNat - '0'.toNat)) 0

/-- The local variables of `parse_gen_gen`, gen_gen.rs:50-62.  The entries are kept in reverse order,
so that the head of the list is `entries.last_mut()`. -/
structure GenState where
  testcaseCount : Nat := 0
  subtaskId : Nat := 0
  rev : List Entry := []
  nameToId : AMap Text Nat := []
  deps : AMap Nat (List Text) := []
  /-- `default_subtask` has not been taken yet. -/
  hasDefault : Bool := true

/-- `default_subtask` (gen_gen.rs:56-62). -/
def defaultSubtask (env : GenEnv) : Subtask :=
  { id := 0, maxScore := 100, isDefault := true, validator := env.validator 0 }

/-- `if let Some(default) = default_subtask.take() { ... }` (gen_gen.rs:147-150 and 164-167). -/
def takeDefault (env : GenEnv) (st : GenState) : GenState :=
  if st.hasDefault then
    { st with rev := .subtask (defaultSubtask env) :: st.rev, subtaskId := st.subtaskId + 1,
              hasDefault := false }
  else st

/-- The body of the loop over the lines (gen_gen.rs:88-188). -/
def genStep (env : GenEnv) (gen : Source) (st : GenState) : GenLine → Except GenErr GenState
  | .subtask score =>
    .ok { st with
      hasDefault := false
      rev := .subtask { id := st.subtaskId, maxScore := (digitsVal score : Rat), isDefault := false,
                        validator := env.validator st.subtaskId } :: st.rev
      subtaskId := st.subtaskId + 1 }
  | .subtaskName name =>
    match st.rev with
    | .subtask s :: rest =>
      if s.name.isSome then .error .nameTwice
      else
        match cleanupName env name with
        | none => .error .invalidName
        | some n =>
          if (st.nameToId.get? n).isSome then .error .duplicateName
          else .ok { st with rev := .subtask { s with name := some n } :: rest
                             nameToId := st.nameToId.insert n s.id }
    | _ => .error .nameNotAfterSubtask
  | .subtaskDep names =>
    match st.rev with
    | .subtask s :: _ =>
      .ok { st with deps :=
        if names.isEmpty then st.deps
        else st.deps.insert s.id ((st.deps.get? s.id).getD [] ++ names) }
    | _ => .error .depNotAfterSubtask
  | .copy what =>
    let st := takeDefault env st
    .ok { st with
      rev := .testcase ⟨st.testcaseCount, .staticFile (env.join what),
                        env.outputGen st.testcaseCount⟩ :: st.rev
      testcaseCount := st.testcaseCount + 1 }
  | .command args =>
    let st := takeDefault env st
    match env.outputGen st.testcaseCount with
    | .staticFile _ => .error .noSolution
    | out =>
      .ok { st with
        rev := .testcase ⟨st.testcaseCount, .custom gen args, out⟩ :: st.rev
        testcaseCount := st.testcaseCount + 1 }
  | .comment => .ok st
  | .empty => .ok st

/-- The loop over the lines (gen_gen.rs:88-193). -/
def genLoop (env : GenEnv) (gen : Source) (st : GenState) : List GenLine → Except GenErr GenState
  | [] => .ok st
  | l :: ls =>
    match genStep env gen st l with
    | .error e => .error e
    | .ok st' => genLoop env gen st' ls

/-- The dependencies of one subtask (gen_gen.rs:198-207); `acc` is `subtask.dependencies`, `n` the
number of subtasks. -/
def resolveDeps (names : AMap Text Nat) (n : Nat) (acc : List Nat) :
    List Text → Except GenErr (List Nat)
  | [] => .ok acc
  | d :: ds =>
    if d = ['*'] then resolveDeps names n (List.range n) ds
    else
      match names.get? d with
      | none => .error .unknownName
      | some i => resolveDeps names n (acc ++ [i]) ds

/-- The loop over the entries (gen_gen.rs:195-213). -/
def resolveAll (names : AMap Text Nat) (deps : AMap Nat (List Text)) (n : Nat) :
    List Entry → Except GenErr (List Entry)
  | [] => .ok []
  | .testcase t :: es =>
    match resolveAll names deps n es with
    | .error e => .error e
    | .ok es' => .ok (.testcase t :: es')
  | .subtask s :: es =>
    match (match deps.get? s.id with
      | none => (.ok s : Except GenErr Subtask)
      | some ds =>
        match resolveDeps names n s.dependencies ds with
        | .error e => .error e
        | .ok l => .ok { s with dependencies := dedup (sortNat l) }) with
    | .error e => .error e
    | .ok s' =>
      match resolveAll names deps n es with
      | .error e => .error e
      | .ok es' => .ok (.subtask s' :: es')

/-- Everything after the parsing of the text (gen_gen.rs:50-216). -/
def interpGen (env : GenEnv) (lines : List GenLine) : Except GenErr (List Entry) :=
  match env.generators with
  | [] => .error .noGenerator
  | _ :: _ :: _ => .error .multipleGenerators
  | [gen] =>
    match genLoop env gen {} lines with
    | .error e => .error e
    | .ok st => resolveAll st.nameToId st.deps st.subtaskId st.rev.reverse

/-- `parse_gen_gen` (gen_gen.rs:28-217) on the content of the file. -/
def parseGenGen (env : GenEnv) (content : Text) : Except GenErr (List Entry) :=
  match parseGen content with
  | none => .error .syntax
  | some lines => interpGen env lines

end TM.Format
