import Verif.Format.GenGen

/-!
# What a `gen/GEN` file means

A specification of the content of `gen/GEN`, by recursion on the lines and without any state: the
`k`-th `#ST:` line makes the `k`-th subtask, the `k`-th copy or command line makes the `k`-th testcase,
and the `#STNAME:` and `#STDEP:` lines that follow a `#ST:` line (before the next subtask or testcase)
name it and give its dependencies.
-/
namespace TM.Format

/-- Lines that neither make a subtask nor a testcase. -/
def isAnnot : GenLine → Bool
  | .subtaskName _ | .subtaskDep _ | .comment | .empty => true
  | _ => false

/-- Lines that make a testcase. -/
def isTcLine : GenLine → Bool
  | .copy _ | .command _ => true
  | _ => false

/-- Lines that make a subtask. -/
def isStLine : GenLine → Bool
  | .subtask _ => true
  | _ => false

/-- The lines that follow, up to the next subtask or testcase. -/
def annots (ls : List GenLine) : List GenLine := ls.takeWhile isAnnot

/-- The names of some `#STNAME:` lines. -/
def namesIn (ls : List GenLine) : List Text :=
  ls.filterMap fun l => match l with | .subtaskName n => some n | _ => none

/-- The words of some `#STDEP:` lines. -/
def depsIn (ls : List GenLine) : List Text :=
  ls.flatMap fun l => match l with | .subtaskDep ws => ws | _ => []

/-- The first line that makes a subtask or a testcase makes a testcase: there is a default subtask. -/
def startsWithTestcase (ls : List GenLine) : Bool :=
  match ls.dropWhile isAnnot with
  | l :: _ => isTcLine l
  | [] => false

/-- The entries of the lines when the next subtask is number `k` and the next testcase is number `t`;
`dep` turns the words of the `#STDEP:` lines into numbers of subtasks. -/
def spec (env : GenEnv) (gen : Source) (dep : List Text → List Nat) : Nat → Nat → List GenLine → List Entry
  | _, _, [] => []
  | k, t, .subtask score :: ls =>
    .subtask { id := k, maxScore := (digitsVal score : Rat), validator := env.validator k
               name := (namesIn (annots ls)).head?.bind (cleanupName env)
               dependencies := dep (depsIn (annots ls)) } :: spec env gen dep (k + 1) t ls
  | k, t, .copy path :: ls =>
    .testcase ⟨t, .staticFile (env.join path), env.outputGen t⟩ :: spec env gen dep k (t + 1) ls
  | k, t, .command args :: ls =>
    .testcase ⟨t, .custom gen args, env.outputGen t⟩ :: spec env gen dep k (t + 1) ls
  | k, t, .subtaskName _ :: ls => spec env gen dep k t ls
  | k, t, .subtaskDep _ :: ls => spec env gen dep k t ls
  | k, t, .comment :: ls => spec env gen dep k t ls
  | k, t, .empty :: ls => spec env gen dep k t ls

/-- The names of the subtasks with their numbers. -/
def nameTable (env : GenEnv) : Nat → List GenLine → List (Text × Nat)
  | _, [] => []
  | k, .subtask _ :: ls =>
    ((namesIn (annots ls)).filterMap (cleanupName env)).map (·, k) ++ nameTable env (k + 1) ls
  | k, _ :: ls => nameTable env k ls

/-- The words of the dependencies of the subtasks. -/
def depTable : Nat → List GenLine → List (Nat × List Text)
  | _, [] => []
  | k, .subtask _ :: ls => (k, depsIn (annots ls)) :: depTable (k + 1) ls
  | k, _ :: ls => depTable k ls

/-- Number of subtasks, without the default one. -/
def nSub (ls : List GenLine) : Nat := (ls.filter isStLine).length

/-- Number of testcases. -/
def nTc (ls : List GenLine) : Nat := (ls.filter isTcLine).length

/-- The lines that may follow a line: a `#STNAME:` line and `#STDEP:` lines follow a `#ST:` line only,
and there is at most one name, which must be valid. -/
def FollowOk (env : GenEnv) (l : GenLine) (as : List GenLine) : Prop :=
  (isTcLine l = true → namesIn as = [] ∧ ∀ ws, GenLine.subtaskDep ws ∉ as) ∧
  (isStLine l = true → namesIn as = [] ∨ ∃ n c, namesIn as = [n] ∧ cleanupName env n = some c)

/-- The dependencies given by some words: a subtask is a dependency when one of the words is `*` or
its name. -/
def depIds (table : List (Text × Nat)) (n : Nat) (ws : List Text) : List Nat :=
  (List.range n).filter fun i => ws.any fun w => w == ['*'] || table.contains (w, i)

/-- Number of default subtasks: 0 or 1. -/
def firstId (ls : List GenLine) : Nat := if startsWithTestcase ls then 1 else 0

/-- All the entries of a file: a default subtask worth 100 points when a testcase comes before any
subtask, then what the lines say. -/
def genEntries (env : GenEnv) (gen : Source) (ls : List GenLine) : List Entry :=
  (if startsWithTestcase ls then
    [Entry.subtask { id := 0, maxScore := 100, isDefault := true, validator := env.validator 0 }]
   else []) ++
  spec env gen (depIds (nameTable env (firstId ls) ls) (firstId ls + nSub ls)) (firstId ls) 0 ls

/-- The files that are accepted. -/
structure Accepted (env : GenEnv) (ls : List GenLine) : Prop where
  /-- No name and no dependencies before the first subtask. -/
  lead : namesIn (annots ls) = [] ∧ ∀ ws, GenLine.subtaskDep ws ∉ annots ls
  /-- Names and dependencies directly follow a `#ST:` line, at most one valid name for each. -/
  follow : ∀ pre l post, ls = pre ++ l :: post → FollowOk env l (annots post)
  /-- No two subtasks have the same name. -/
  distinct : ((nameTable env 0 ls).map (·.1)).Nodup
  /-- The dependencies are names of subtasks of the file. -/
  known : ∀ ws, GenLine.subtaskDep ws ∈ ls → ∀ w ∈ ws, w = ['*'] ∨ w ∈ (nameTable env 0 ls).map (·.1)
  /-- A generated testcase has an official solution. -/
  solution : ∀ pre args post, ls = pre ++ .command args :: post → ∀ p,
    env.outputGen (nTc pre) ≠ .staticFile p

end TM.Format
