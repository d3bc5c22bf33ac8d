import Verif.Proto.Model
/-!
# What a transfer is for: specification
-/
namespace TM.Proto

/-- What the receiver should see of an action. -/
def Action.meaning {M : Type} : Action M → Event M
  | .message m => .message m
  | .file m _ content => .transfer m content
  | .data m content => .transfer m content

/-- Whether an action is a transfer. -/
def Action.isTransfer {M : Type} : Action M → Bool
  | .message _ => false
  | _ => true

/-- The sender respects the protocol: it transfers a file exactly after the messages that announce
one, and no read of the file fails. -/
def Action.Ok {M : Type} (announces : M → Bool) : Action M → Prop
  | .message m => announces m = false
  | .file m answers _ => announces m = true ∧ none ∉ answers
  | .data m _ => announces m = true

/-! ## Several threads sending on one channel -/

/-- A thread: the actions to do, each either made holding the mutex (`true`) or not, and the action
in progress with the frames still to send. -/
structure Thread (M : Type) where
  todo : List (Bool × Action M)
  cur : Option (Bool × Action M × List (Frame M)) := none

/-- Threads sharing the sender of a channel and a mutex (`file_mode` in
`task-maker-exec/src/client.rs:87`). -/
structure Shared (M : Type) where
  threads : Nat → Thread M
  lock : Option Nat := none
  out : List (Frame M) := []

/-- Changes the state of a thread. -/
def Shared.set {M : Type} (s : Shared M) (i : Nat) (t : Thread M) : Shared M :=
  { s with threads := fun j => if j = i then t else s.threads j }

/-- One step of one of the threads. -/
inductive Shared.Step {M : Type} : Shared M → Shared M → Prop
  /-- a thread begins its next action without taking the mutex -/
  | begin {s : Shared M} (i : Nat) (a : Action M) (rest : List (Bool × Action M)) :
      (s.threads i).cur = none → (s.threads i).todo = (false, a) :: rest →
      Step s (s.set i { todo := rest, cur := some (false, a, a.frames) })
  /-- a thread takes the mutex and begins its next action -/
  | acquire {s : Shared M} (i : Nat) (a : Action M) (rest : List (Bool × Action M)) :
      (s.threads i).cur = none → (s.threads i).todo = (true, a) :: rest → s.lock = none →
      Step s { s.set i { todo := rest, cur := some (true, a, a.frames) } with lock := some i }
  /-- a thread sends one frame (a `send` is atomic) -/
  | send {s : Shared M} (i : Nat) (l : Bool) (a : Action M) (f : Frame M) (fs : List (Frame M)) :
      (s.threads i).cur = some (l, a, f :: fs) →
      Step s { s.set i { todo := (s.threads i).todo, cur := some (l, a, fs) } with
        out := s.out ++ [f] }
  /-- a thread has sent all the frames of its action, and releases the mutex if it has it -/
  | finish {s : Shared M} (i : Nat) (l : Bool) (a : Action M) :
      (s.threads i).cur = some (l, a, []) →
      Step s { s.set i { todo := (s.threads i).todo, cur := none } with
        lock := if l then none else s.lock }

/-- The states reachable when thread `i` has to do `init i`. -/
inductive Shared.Reach {M : Type} (init : Nat → List (Bool × Action M)) : Shared M → Prop
  | start : Reach init { threads := fun i => { todo := init i } }
  | step {s s' : Shared M} : Reach init s → Shared.Step s s' → Reach init s'

/-- No thread has anything left to do. -/
def Shared.Finished {M : Type} (s : Shared M) : Prop :=
  ∀ i, (s.threads i).todo = [] ∧ (s.threads i).cur = none

/-- The locking discipline: transfers are made holding the mutex, and if some thread makes transfers
the others hold the mutex whatever they send. -/
structure Disciplined {M : Type} (init : Nat → List (Bool × Action M)) : Prop where
  transfers : ∀ i l a, (l, a) ∈ init i → a.isTransfer = true → l = true
  others : ∀ i j, i ≠ j → (∃ l a, (l, a) ∈ init i ∧ a.isTransfer = true) →
    ∀ l a, (l, a) ∈ init j → l = true

/-- `merged` is an interleaving of the lists of the threads: the elements of thread `i` are the list
of thread `i`, in its order. -/
def Interleaving {α : Type} (merged : List (Nat × α)) (lists : Nat → List α) : Prop :=
  ∀ i, (merged.filter (fun p => p.1 == i)).map (·.2) = lists i

end TM.Proto
