import Verif.Cache.Model
/-!
# Specification of "the same request" (property C16)

Nothing here mentions the cache key: two executions are the same request when they run the same
command, with the same arguments up to the names of the group's FIFOs, the same stdin content, the
same environment and the same input files.
-/

namespace TM.Cache

open TM

/-- The argument is the sandbox path of the `i`-th FIFO of the group. -/
def IsFifoArg (g : ExecutionGroup) (i : Nat) (arg : String) : Prop :=
  ∃ f, g.fifo[i]? = some f ∧ arg = fifoPath f

/-- Two arguments mean the same thing in their groups: the FIFO created at the same position, or
the same literal. -/
def SameArg (g₁ g₂ : ExecutionGroup) (a b : String) : Prop :=
  (∃ i, IsFifoArg g₁ i a ∧ IsFifoArg g₂ i b) ∨
  ((∀ i, ¬ IsFifoArg g₁ i a) ∧ (∀ i, ¬ IsFifoArg g₂ i b) ∧ a = b)

/-- What an execution sees at a path of its sandbox: the content (its key in the store) and
whether it is executable. -/
def inputAt (fk : FileKeys) (e : Execution) (path : String) : Option (Option FileStoreKey × Bool) :=
  (e.inputs.get? path).map (fun i => (fk.get? i.file, i.executable))

/-- Two executions (each in its group and with its files) are the same request. -/
structure SameExec (g₁ g₂ : ExecutionGroup) (fk₁ fk₂ : FileKeys) (e₁ e₂ : Execution) : Prop where
  command : e₁.command = e₂.command
  argCount : e₁.args.length = e₂.args.length
  args : ∀ (i : Nat) a b, e₁.args[i]? = some a → e₂.args[i]? = some b → SameArg g₁ g₂ a b
  stdin : e₁.stdin.map fk₁.get? = e₂.stdin.map fk₂.get?
  env : ∀ name, e₁.env.get? name = e₂.env.get? name
  inputs : ∀ path, inputAt fk₁ e₁ path = inputAt fk₂ e₂ path

/-- Two groups are the same request. -/
structure SameGroup (g₁ g₂ : ExecutionGroup) (fk₁ fk₂ : FileKeys) : Prop where
  count : g₁.executions.length = g₂.executions.length
  execs : ∀ (i : Nat) e₁ e₂, g₁.executions[i]? = some e₁ → g₂.executions[i]? = some e₂ →
    SameExec g₁ g₂ fk₁ fk₂ e₁ e₂

/-- A group as the API builds it: environment and inputs are maps, the FIFOs are distinct. -/
structure GroupWf (g : ExecutionGroup) : Prop where
  fifo : g.fifo.Nodup
  inputs : ∀ e ∈ g.executions, AMap.Wf e.inputs
  env : ∀ e ∈ g.executions, AMap.Wf e.env

/-- No argument is literally one of the names `tm_fifo_0`, `tm_fifo_1`, ... the cache uses
internally. -/
def NoFifoNameArg (g : ExecutionGroup) : Prop :=
  ∀ e ∈ g.executions, ∀ a ∈ e.args, ∀ i, a ≠ fifoName i

end TM.Cache
