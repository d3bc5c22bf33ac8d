import Verif.Base.AMap
import Verif.Format.Entries

/-!
# Loading the subtasks and the testcases of a task

Model of the middle part of `parse_task`
(`task-maker-format/src/ioi/format/italian_yaml/mod.rs` lines 572-625 and 657-659): the entries are
grouped in two hash maps, then the testcases of the dependencies of a subtask are added to it until
nothing changes.  The iteration order of the hash map is a parameter of the model and may change at
every round.
-/
namespace TM.Format
open TM AMap

/-- Errors and panics of the loading. -/
inductive LoadErr where
  /-- `context("Testcase before Subtask")`. -/
  | testcaseBeforeSubtask
  /-- `subtasks.get(&id).unwrap()` on a missing key: the program panics. -/
  | panic
  /-- `bail!("Use task.yaml.orig to use subtask dependencies")`. -/
  | needsOrig
  deriving DecidableEq, Repr

/-- The two maps built by lines 572-574. -/
structure Loaded where
  subtasks : AMap Nat Subtask
  testcases : AMap Nat Testcase

/-- The loop at italian_yaml/mod.rs:575-594 (`last` is `last_subtask`). -/
def groupLoop (subs : AMap Nat Subtask) (tcs : AMap Nat Testcase) (last : Option Subtask) :
    List Entry → Except LoadErr Loaded
  | [] =>
    .ok ⟨match last with | some s => subs.insert s.id s | none => subs, tcs⟩
  | .subtask s :: rest =>
    groupLoop (match last with | some l => subs.insert l.id l | none => subs) tcs (some s) rest
  | .testcase t :: rest =>
    match last with
    | none => .error .testcaseBeforeSubtask
    | some s =>
      groupLoop subs (tcs.insert t.id t)
        (some { s with testcases := s.testcases ++ [t.id], owned := s.owned ++ [t.id] }) rest

/-- italian_yaml/mod.rs:572-594: the entries grouped by subtask. -/
def group (es : List Entry) : Except LoadErr Loaded := groupLoop [] [] none es

/-- The body of the innermost loop, italian_yaml/mod.rs:601-610: the testcases of `st2` are added to
those of `st1`; the flag says whether the length changed. -/
def absorb (m : AMap Nat Subtask) (st1 st2 : Nat) : Except LoadErr (AMap Nat Subtask × Bool) :=
  match m.get? st2, m.get? st1 with
  | some s2, some s1 =>
    let tcs := dedup (sortNat (s1.testcases ++ s2.testcases))
    .ok (m.insert st1 { s1 with testcases := tcs }, decide (s1.testcases.length ≠ tcs.length))
  | _, _ => .error .panic

/-- The loop over the dependencies of a subtask, italian_yaml/mod.rs:600-611. -/
def absorbAll (m : AMap Nat Subtask) (st1 : Nat) : List Nat → Except LoadErr (AMap Nat Subtask × Bool)
  | [] => .ok (m, false)
  | st2 :: rest =>
    match absorb m st1 st2 with
    | .error e => .error e
    | .ok (m', u) =>
      match absorbAll m' st1 rest with
      | .error e => .error e
      | .ok (m'', u') => .ok (m'', u || u')

/-- One round over the keys of the map, italian_yaml/mod.rs:597-612; `keys` is the iteration order of
the hash map. -/
def closeRound (m : AMap Nat Subtask) : List Nat → Except LoadErr (AMap Nat Subtask × Bool)
  | [] => .ok (m, false)
  | st1 :: rest =>
    match m.get? st1 with
    | none => .error .panic
    | some s =>
      match absorbAll m st1 s.dependencies with
      | .error e => .error e
      | .ok (m', u) =>
        match closeRound m' rest with
        | .error e => .error e
        | .ok (m'', u') => .ok (m'', u || u')

/-- The loop at italian_yaml/mod.rs:596-616.  `order i` is the iteration order at round `i`; the first
number is a bound on the rounds (`none` when it is not enough), see
`Verif.Format.PropsLoad.close_terminates`. -/
def closeLoop (order : Nat → List Nat) : Nat → Nat → AMap Nat Subtask →
    Option (Except LoadErr (AMap Nat Subtask))
  | 0, _, _ => none
  | n + 1, i, m =>
    match closeRound m (order i) with
    | .error e => some (.error e)
    | .ok (m', u) => if u then closeLoop order n (i + 1) m' else some (.ok m')

/-- Subtasks and testcases of a task, italian_yaml/mod.rs:572-616 and 657-659: `orig` says whether
the task has a `task.yaml.orig`. -/
def load (orig : Bool) (order : Nat → List Nat) (rounds : Nat) (es : List Entry) :
    Option (Except LoadErr Loaded) :=
  match group es with
  | .error e => some (.error e)
  | .ok l =>
    match closeLoop order rounds 0 l.subtasks with
    | none => none
    | some (.error e) => some (.error e)
    | some (.ok subs) =>
      if !orig && subs.values.any (fun s => !s.dependencies.isEmpty) then some (.error .needsOrig)
      else some (.ok ⟨subs, l.testcases⟩)

end TM.Format
