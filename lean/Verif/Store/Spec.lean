import Verif.Store.Model
/-!
# Specification of the store

The notions used in the statements about the store: which files are there, which are in use, what
was stored.  None of them looks at the reference counts or at the flush algorithm.
-/

namespace TM.Store

open TM

/-- The file is in the store. -/
def Visible (s : State) (k : Key) : Prop := ∃ c, s.disk.get? k = some c

/-- The number of live handles of a key. -/
def live (handles : List Handle) (k : Key) : Nat := handles.countP (fun h => decide (h.key = k))

/-- Somebody holds a handle of the file. -/
def Held (s : State) (k : Key) : Prop := ∃ h ∈ s.handles, h.key = k

/-- A handle a caller has received: alive, and not the one of a `store` which is still running. -/
def Owned (s : State) (h : Handle) : Prop := h ∈ s.handles ∧ s.inFlight h.id = false

/-- `s'` is reached from `s` with any number of steps, the file being held before each of them. -/
inductive WhileHeld (k : Key) : State → State → Prop
  | refl (s : State) : WhileHeld k s s
  | step {s s' s'' : State} (op : Op) : Held s k → step s op = some s' → WhileHeld k s' s'' →
      WhileHeld k s s''

/-- Keys are hashes of contents: whoever stores under the same key stores the same content. -/
def ContentAddressed (ops : List Op) : Prop :=
  ∀ t hid k c t' hid' c', Op.storeBegin t hid k c ∈ ops → Op.storeBegin t' hid' k c' ∈ ops → c = c'

/-- The process goes on: no crash, no restart, no failed `store`, no file that cannot be removed. -/
def Smooth : Op → Prop
  | .storeFail _ | .close _ _ | .crash _ | .flushCrash .. => False
  | .storeIndex _ _ undeletable => undeletable = []
  | _ => True

/-- The bytes on disk in the store. -/
def diskUsage (s : State) : Nat := (s.disk.map (fun p => p.2.length)).sum

end TM.Store
