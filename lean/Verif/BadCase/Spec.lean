import Verif.BadCase.Model
import Verif.Build.Spec
/-!
# What the search of a bad case has to do
-/
namespace TM.BadCase.Spec
open TM TM.Build TM.BadCase

/-- The batches made with the arguments `args` and the seeds `seed`. -/
def batchesOf (args : List String) (size : Nat) (seed : Nat → Nat) (k : Nat) : Batch := makeBatch args size k seed

/-- The solution failed on the testcase: it did not get the full score. -/
def IsBad (l : List (Nat × Msg)) (k tc : Nat) (message : String) : Prop :=
  ∃ s, s ≠ .num 1 ∧ (k, Msg.score tc s message) ∈ l

/-- The generator or the validator failed on the testcase, with that result. -/
def IsError (l : List (Nat × Msg)) (k tc : Nat) (what : String) (o : Outcome) : Prop :=
  o.status ≠ .success ∧
  (what = "Generator failed" ∧ (k, Msg.generation tc (.done o)) ∈ l ∨
   what = "Validator failed" ∧ (k, Msg.validation tc (.done o)) ∈ l)

/-- What a message says of the status of a testcase. -/
def says : Msg → Option (Nat × TcStatus)
  | .generation tc .started => some (tc, .generating)
  | .generation tc (.done o) => some (tc, if o.status = .success then .generated else .error)
  | .validation tc .started => some (tc, .validating)
  | .validation tc (.done o) => some (tc, if o.status = .success then .validated else .error)
  | .evaluation tc .started => some (tc, .solving)
  | .evaluation tc (.done o) => if o.status = .success then some (tc, .solved) else none
  | .checker tc .started => some (tc, .checking)
  | .score tc s m => some (tc, if s = .num 1 then .success else .failed m)
  | _ => none

/-- The last status said of testcase `tc` by the messages of batch `k`. -/
def lastSaid (l : List (Nat × Msg)) (k tc : Nat) : TcStatus :=
  ((l.filterMap (fun p => if p.1 = k then says p.2 else none)).filter (fun x => x.1 = tc)).getLast?.elim .pending (·.2)

/-- The outputs are in the directory of the task, and the executables of its source files are saved inside it, but not among
the inputs and the outputs. -/
structure Places (root : String) (task : Task) (sol : Src) : Prop where
  path : task.path = root
  exes : ∀ s ∈ Build.Spec.sources task [sol], ∀ d, s.writeBinTo = some d → ∃ r, d = root ++ "/" ++ r ∧
    ∀ dir ∈ ["input", "output"], r ≠ dir ∧ ∀ x, r ≠ dir ++ "/" ++ x

end TM.BadCase.Spec
