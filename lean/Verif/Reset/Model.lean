import Verif.Solution.Extract
/-!
# The tool that wipes the storage (`src/tools/reset.rs`)

Model of `main_reset`.  The storage is a tree of directories with the mode of each; a link is the directory outside of the
storage it leads to, if it leads to one (links to directories of the storage are left out, and the storage is not a link).
Of a mode only what the owner can do counts.  `WalkDir` lists a directory before it hands it to the closure that changes its
mode.
-/
namespace TM.Reset

abbrev Text := List Char
abbrev Path := List Text

/-- What the owner of a directory can do. -/
structure Mode where
  r : Bool
  w : Bool
  x : Bool
deriving DecidableEq, Repr

/-- `0o755`. -/
def Mode.all : Mode := ⟨true, true, true⟩

/-- The entries of a directory. -/
inductive Forest where
  | nil
  | file (name : Text) (rest : Forest)
  | link (name : Text) (target : Option Path) (rest : Forest)
  | dir (name : Text) (mode : Mode) (children rest : Forest)
deriving DecidableEq, Repr

/-- The first pass, reset.rs:53-68: the new modes and the directories outside whose mode is changed. -/
def chmod : Forest → Forest × List Path
  | .nil => (.nil, [])
  | .file name rest => (.file name (chmod rest).1, (chmod rest).2)
  | .link name target rest => (.link name target (chmod rest).1, target.toList ++ (chmod rest).2)
  | .dir name mode children rest =>
    if mode.r then (.dir name .all (chmod children).1 (chmod rest).1, (chmod children).2 ++ (chmod rest).2)
    else (.dir name .all children (chmod rest).1, (chmod rest).2)

/-- `remove_dir_all` on the entries of a directory where things can be removed or not: what is left, and whether it worked;
it stops at the first error. -/
def remove (can : Bool) : Forest → Forest × Bool
  | .nil => (.nil, true)
  | .file name rest => if can then remove can rest else (.file name rest, false)
  | .link name target rest => if can then remove can rest else (.link name target rest, false)
  | .dir name mode children rest =>
    if mode.r then
      let (left, ok) := remove (mode.w && mode.x) children
      if ok && can then remove can rest
      else (.dir name mode left rest, false)
    else (.dir name mode children rest, false)

/-- `line.trim().to_lowercase() == "y"`, reset.rs:44. -/
def confirmed (line : Text) : Bool :=
  ((line.dropWhile Solution.isWs).reverse.dropWhile Solution.isWs).reverse.map Char.toLower = ['y']

/-- How the tool ends. -/
inductive End where
  | aborted
  /-- the error that there is no storage -/
  | missing
  | removed
  /-- the error is printed, the tool succeeds -/
  | failed
deriving DecidableEq, Repr

structure Outcome where
  how : End
  /-- the storage, if there is one: its mode and its entries -/
  store : Option (Mode × Forest)
  /-- the directories outside whose mode is changed -/
  touched : List Path
deriving DecidableEq, Repr

/-- `main_reset`, reset.rs:22-74; `can` is whether the directory of the storage can be removed from its parent. -/
def reset (line : Text) (can : Bool) (store : Option (Mode × Forest)) : Outcome :=
  if confirmed line then
    match store with
    | none => ⟨.missing, none, []⟩
    | some (mode, entries) =>
      match chmod (.dir [] mode entries .nil) with
      | (tree, touched) =>
        match remove can tree with
        | (_, true) => ⟨.removed, none, touched⟩
        | (.dir _ mode' left _, false) => ⟨.failed, some (mode', left), touched⟩
        | (_, false) => ⟨.failed, none, touched⟩
  else ⟨.aborted, store, []⟩

/-! ## Specification -/

/-- The tree has a directory at the path, with that mode and entries. -/
inductive HasDir : Forest → Path → Mode → Forest → Prop where
  | here (name : Text) (mode : Mode) (children rest : Forest) : HasDir (.dir name mode children rest) [name] mode children
  | inside {children : Forest} {p : Path} {m : Mode} {c : Forest} (name : Text) (mode : Mode) (rest : Forest) :
      HasDir children p m c → HasDir (.dir name mode children rest) (name :: p) m c
  | file {rest : Forest} {p : Path} {m : Mode} {c : Forest} (name : Text) : HasDir rest p m c → HasDir (.file name rest) p m c
  | link {rest : Forest} {p : Path} {m : Mode} {c : Forest} (name : Text) (t : Option Path) : HasDir rest p m c →
      HasDir (.link name t rest) p m c
  | next {rest : Forest} {p : Path} {m : Mode} {c : Forest} (name : Text) (mode : Mode) (children : Forest) : HasDir rest p m c →
      HasDir (.dir name mode children rest) p m c

/-- The tree has a link to the directory. -/
inductive HasLink : Forest → Path → Prop where
  | here (name : Text) (t : Path) (rest : Forest) : HasLink (.link name (some t) rest) t
  | inside {children : Forest} {t : Path} (name : Text) (mode : Mode) (rest : Forest) : HasLink children t →
      HasLink (.dir name mode children rest) t
  | file {rest : Forest} {t : Path} (name : Text) : HasLink rest t → HasLink (.file name rest) t
  | link {rest : Forest} {t : Path} (name : Text) (t' : Option Path) : HasLink rest t → HasLink (.link name t' rest) t
  | next {rest : Forest} {t : Path} (name : Text) (mode : Mode) (children : Forest) : HasLink rest t →
      HasLink (.dir name mode children rest) t

/-- The user says yes. -/
def SaysYes (line : Text) : Prop :=
  ∃ a b c, line = a ++ c :: b ∧ (∀ x ∈ a ++ b, Solution.isWs x = true) ∧ (c = 'y' ∨ c = 'Y')

/-- The directories of the tree can be listed. -/
def Listable (f : Forest) : Prop := ∀ p m c, HasDir f p m c → m.r = true

/-- The directories of the tree can be removed. -/
def Removable (f : Forest) : Prop := ∀ p m c, HasDir f p m c → m.r = true ∧ (c = .nil ∨ m.w = true ∧ m.x = true)

end TM.Reset
